import Verif.IniDoc.GroupProps

/-!
# Theorems about copying the node lists of an INI storage
-/

namespace Verif.IniDoc

open Verif.Ini.Spec (fold)

variable {V : Type}

theorem copyLoop_spec {junk : Nat} : ∀ (ts : List Nat) (ns : List (Node V)) (d : Grp V) (gs : List (Nat × List Nat)) (v : List Int → List V), Inv d gs v → (∀ k r, d.table k ≠ some (r, true)) →
    ts.mapM d.mem = some ns → (∀ t ∈ ts, t < d.fresh) → (∀ n ∈ ns, n.inst = [] ∧ n.idx = 0 ∧ v (fold n.key) = []) → (∀ k, (ns.filter fun n => fold n.key == k).length ≤ 1) →
    ∃ d' gs', copyLoop junk ts d none 0 = some d' ∧ Inv d' gs' (fun k => v k ++ (ns.filter fun n => fold n.key == k).map (·.val)) ∧ (∀ k r, d'.table k ≠ some (r, true)) ∧
      (∀ x, x < d.fresh → d'.mem x = d.mem x) ∧ d.fresh ≤ d'.fresh := by
  intro ts
  induction ts with
  | nil =>
    intro ns d gs v h hok hm _ _ _
    have : ns = [] := by simpa using hm.symm
    subst this
    exact ⟨d, gs, rfl, by simpa using h, hok, fun _ _ => rfl, Nat.le_refl _⟩
  | cons t ts ih =>
    intro ns d gs v h hok hm hlt hns huniq
    rw [List.mapM_cons] at hm
    cases hmt : d.mem t with
    | none => simp [hmt] at hm
    | some n =>
      cases hmts : ts.mapM d.mem with
      | none => simp [hmt, hmts] at hm
      | some ms =>
        have : ns = n :: ms := by simpa [hmt, hmts] using hm.symm
        subst this
        obtain ⟨hn1, hn2, hn3⟩ := hns n List.mem_cons_self
        obtain ⟨d1, gs1, ha, hi, hmem, htab⟩ := h.add n.key n.val (hok _)
        have htn : d.table (fold n.key) = none := by
          cases ht : d.table (fold n.key) with
          | none => rfl
          | some rb =>
            obtain ⟨is, _, m, ws, _, _, _, _, h5, _⟩ := h.tbl _ rb.1 rb.2 ht
            rw [hn3] at h5
            cases h5
        have hd1 : d1 = ⟨upd d.mem d.fresh (some ⟨n.key, n.val, 0, []⟩), d.order ++ [d.fresh], upd d.table (fold n.key) (some (d.fresh, false)), d.fresh + 1⟩ := by
          simp only [Grp.add, Grp.find, htn, Option.some.injEq, Prod.mk.injEq] at ha
          exact ha.1.symm
        have hfr : d1.fresh = d.fresh + 1 := by rw [hd1]
        have hold : ∀ x, x < d.fresh → d1.mem x = d.mem x := by
          intro x hx
          rw [hd1]
          exact upd_ne _ _ (by omega)
        have hms : ts.mapM d1.mem = some ms := by
          rw [← hmts]
          have : ∀ l : List Nat, (∀ t ∈ l, t < d.fresh) → l.mapM d1.mem = l.mapM d.mem := by
            intro l
            induction l with
            | nil => intro _; rfl
            | cons a l ihl =>
              intro hl
              rw [List.mapM_cons, List.mapM_cons, hold a (hl a List.mem_cons_self), ihl fun t ht => hl t (List.mem_cons_of_mem _ ht)]
          exact this ts fun t ht => hlt t (List.mem_cons_of_mem _ ht)
        have hdiff : ∀ m ∈ ms, fold m.key ≠ fold n.key := by
          intro m hm he
          have := huniq (fold n.key)
          rw [List.filter_cons_of_pos (by simp), List.length_cons] at this
          have h0 : (ms.filter fun x => fold x.key == fold n.key).length = 0 := by omega
          rw [List.length_eq_zero_iff, List.filter_eq_nil_iff] at h0
          exact h0 m hm (by simp [he])
        obtain ⟨d', gs', hc, hi', hok', hold', hfr'⟩ := ih ms d1 gs1 _ hi (fun k r hk => hok k r (htab k r hk)) hms (fun x hx => by rw [hfr]; exact Nat.lt_succ_of_lt (hlt x (List.mem_cons_of_mem _ hx)))
          (by
            intro m hm
            refine ⟨(hns m (List.mem_cons_of_mem _ hm)).1, (hns m (List.mem_cons_of_mem _ hm)).2.1, ?_⟩
            rw [upd_ne _ _ (hdiff m hm)]
            exact (hns m (List.mem_cons_of_mem _ hm)).2.2)
          (by
            intro k
            have := huniq k
            rw [List.filter_cons] at this
            split at this
            · simp only [List.length_cons] at this; omega
            · exact this)
        refine ⟨d', gs', ?_, ?_, hok', fun x hx => by rw [hold' x (by omega), hold x hx], by omega⟩
        · rw [copyLoop, hmt]
          simp only [hn1, List.length_nil, ne_eq, not_true_eq_false, if_false, Nat.lt_irrefl, gt_iff_lt, List.replicate_zero, hn2]
          rw [hd1] at hc
          exact hc
        · have : (fun k => v k ++ ((n :: ms).filter fun x => fold x.key == k).map (·.val)) =
              fun k => upd v (fold n.key) (v (fold n.key) ++ [n.val]) k ++ (ms.filter fun x => fold x.key == k).map (·.val) := by
            funext k
            by_cases hk : k = fold n.key
            · subst hk
              rw [upd_self, List.filter_cons_of_pos (by simp)]
              simp
            · rw [upd_ne _ _ hk, List.filter_cons_of_neg (by simpa using Ne.symm hk)]
          rw [this]
          exact hi'

theorem Inv.of_mem {g g' : Grp V} {gs : List (Nat × List Nat)} {v : List Int → List V} (h : Inv g gs v) (ho : g'.order = g.order) (ht : g'.table = g.table) (hf : g.fresh ≤ g'.fresh)
    (hm : ∀ x, x < g.fresh → g'.mem x = g.mem x) (hfree : ∀ x, g'.fresh ≤ x → g'.mem x = none) : Inv g' gs v := by
  refine ⟨by rw [ho, h.order], h.nodup, fun x hx => Nat.lt_of_lt_of_le (h.lt x hx) hf, hfree, ?_, by rw [ht]; exact h.absent, by rw [ht]; exact h.roots⟩
  intro k r b hk
  rw [ht] at hk
  obtain ⟨is, hm', hg⟩ := h.tbl k r b hk
  exact ⟨is, hm', hg.congr fun p hp => hm p (h.lt p (mem_flat.2 ⟨_, hm', hp⟩))⟩

theorem mapM_mem {A B : Type} {f : A → Option B} : ∀ {l : List A} {m : List B}, l.mapM f = some m → ∀ b ∈ m, ∃ a ∈ l, f a = some b := by
  intro l
  induction l with
  | nil => intro m h b hb; simp at h; subst h; cases hb
  | cons a l ih =>
    intro m h b hb
    rw [List.mapM_cons] at h
    cases ha : f a with
    | none => simp [ha] at h
    | some x =>
      cases hl : l.mapM f with
      | none => simp [ha, hl] at h
      | some xs =>
        have : m = x :: xs := by simpa [ha, hl] using h.symm
        subst this
        rcases List.mem_cons.1 hb with rfl | hb
        · exact ⟨a, List.mem_cons_self, ha⟩
        · obtain ⟨a', h1, h2⟩ := ih hl b hb
          exact ⟨a', List.mem_cons_of_mem _ h1, h2⟩

/-- **C106**, for names that occur once: after any history with names of at most 15 characters that leaves at most one value of each name, copying leaves the source with what it
held and gives a copy that holds the same. Missing: repeated names, see the counterexamples. -/
theorem C106_copy_partial (ops : List (Op V)) (junk : Nat) (hn : ∀ op ∈ ops, op.name.length ≤ 15) (hone : ∀ k, (ops.foldl specStep (fun _ => []) k).length ≤ 1) :
    ∃ g src dst, ops.foldlM Grp.step Grp.empty = some g ∧ g.copy junk = some (src, dst) ∧
      (∀ name i, src.get name i = g.get name i ∧ dst.get name i = g.get name i) ∧ (∀ name, src.count name = g.count name ∧ dst.count name = g.count name) ∧
      (∀ x ∈ src.order, x ∉ dst.order) := by
  obtain ⟨g, h1, ⟨gs, h2⟩, h3⟩ := Ok.run (g := (Grp.empty : Grp V)) (v := fun _ => []) ⟨⟨[], Inv.empty⟩, by simp [Grp.empty]⟩ ops hn
  generalize hv : ops.foldl specStep (fun _ => []) = v at *
  obtain ⟨ns, hns, hfil⟩ := h2.nodes
  have hfil' : ∀ k, (ns.filter fun n => fold n.key == k).map (·.val) = v k := by
    intro k
    have := congrArg (List.map Prod.fst) (hfil k)
    rw [List.map_map, List.map_fst_zip (by simp)] at this
    exact this
  have hcnt : ∀ k, (ns.filter fun n => fold n.key == k).length ≤ 1 := by
    intro k
    have := congrArg List.length (hfil' k)
    rw [List.length_map] at this
    rw [this]
    exact hone k
  have hnode : ∀ n ∈ ns, n.inst = [] ∧ n.idx = 0 := by
    intro n hm
    obtain ⟨t, ht, hmt⟩ := mapM_mem hns n hm
    rw [h2.order] at ht
    obtain ⟨x, hx, hp⟩ := mem_flat.1 ht
    obtain ⟨k, b, hk⟩ := h2.roots x hx
    obtain ⟨is, hm', hg⟩ := h2.tbl k x.1 b hk
    have hxe := unique_group h2.nodup hx hm' List.mem_cons_self List.mem_cons_self
    obtain ⟨m, ws, a1, a2, a3, a4, a5, a6⟩ := hg
    have hl := hone k
    rw [a5] at hl
    simp only [List.length_cons] at hl
    have hws : ws = [] := List.length_eq_zero_iff.1 (by omega)
    have his : is = [] := by
      have := a6.length
      rw [hws] at this
      exact List.length_eq_zero_iff.1 this.symm
    rw [hxe] at hp
    simp only [his, List.mem_singleton] at hp
    subst hp
    simp only at a1 a2
    rw [a1] at hmt
    cases hmt
    exact ⟨by rw [a2, his], a4⟩
  have hstart : Inv (⟨g.mem, [], fun _ => none, g.fresh⟩ : Grp V) [] fun _ => [] := by
    refine ⟨rfl, List.nodup_nil, by simp [flat], h2.free, by simp, by simp, by simp⟩
  have hlt : ∀ t ∈ g.order, t < g.fresh := by rw [h2.order]; exact h2.lt
  obtain ⟨d, gs', c1, c2, c3, c4, c5⟩ := copyLoop_spec (junk := junk) g.order ns ⟨g.mem, [], fun _ => none, g.fresh⟩ [] (fun _ => []) hstart (by simp) hns hlt
    (fun n hm => ⟨(hnode n hm).1, (hnode n hm).2, rfl⟩) hcnt
  have hdv : (fun k => ([] : List V) ++ (ns.filter fun n => fold n.key == k).map (·.val)) = v := by
    funext k
    rw [List.nil_append, hfil']
  rw [hdv] at c2
  have hsrc : Inv ({ g with mem := d.mem, fresh := d.fresh } : Grp V) gs v := h2.of_mem rfl rfl c5 c4 c2.free
  refine ⟨g, _, d, h1, by unfold Grp.copy; rw [c1]; rfl, ?_, ?_, ?_⟩
  · intro name i
    exact ⟨by rw [hsrc.get name i (h3 _), h2.get name i (h3 _)], by rw [c2.get name i (c3 _), h2.get name i (h3 _)]⟩
  · intro name
    exact ⟨by rw [hsrc.count name (h3 _), h2.count name (h3 _)], by rw [c2.count name (c3 _), h2.count name (h3 _)]⟩
  · intro x hx hxd
    have hlow := hlt x hx
    have : ∀ (ts : List Nat) (d0 d' : Grp V) (l : Option Nat) (c : Nat), copyLoop junk ts d0 l c = some d' → (∀ y ∈ d0.order, g.fresh ≤ y) → g.fresh ≤ d0.fresh → ∀ y ∈ d'.order, g.fresh ≤ y := by
      intro ts
      induction ts with
      | nil => intro d0 d' l c he ho _; simp [copyLoop] at he; subst he; exact ho
      | cons t ts ih =>
        intro d0 d' l c he ho hf
        rw [copyLoop] at he
        have ho' : ∀ y ∈ d0.order ++ [d0.fresh], g.fresh ≤ y := by
          intro y hy
          rcases List.mem_append.1 hy with hy | hy
          · exact ho y hy
          · simp at hy; omega
        split at he
        · cases he
        · dsimp only at he
          split at he
          · exact ih _ _ _ _ he ho' (by simp only; omega)
          · split at he
            · split at he
              · cases he
              · split at he
                · cases he
                · exact ih _ _ _ _ he ho' (by simp only; omega)
            · exact ih _ _ _ _ he ho' (by simp only; omega)
    have := this _ _ _ _ _ c1 (by simp) (Nat.le_refl _) x hxd
    omega

/-- Two names, one of them added twice and removed once. -/
example : (∀ op ∈ [Op.add [97] 1, .add [98] 2, .add [65] 3, .remove [97] 0], op.name.length ≤ 15) ∧
    ([Op.add [97] 1, .add [98] 2, .add [65] 3, .remove [97] 0].foldl specStep (fun _ => []) [97] = [3]) ∧
    ∀ k, ([Op.add [97] 1, .add [98] 2, .add [65] 3, .remove [97] 0].foldl specStep (fun _ => []) k).length ≤ 1 := by
  refine ⟨by decide, by decide, ?_⟩
  intro k
  simp only [List.foldl_cons, List.foldl_nil, specStep, upd, fold]
  by_cases h1 : k = [97]
  · subst h1; decide
  · by_cases h2 : k = [98]
    · subst h2; decide
    · simp [h1, h2]

/-- In the copy of a storage with two sections of one name, there is only one. -/
theorem C106_missing_counterexample (junk : Nat) : ∃ (g src dst : Grp Nat), [Op.add [97] 1, .add [97] 2].foldlM Grp.step Grp.empty = some g ∧ g.copy junk = some (src, dst) ∧
    g.get [97] 1 = some (some 2) ∧ dst.get [97] 1 = some none ∧ g.get [97] 0 = some (some 1) ∧ dst.get [97] 0 = some (some 2) := by
  refine ⟨_, _, _, rfl, rfl, ?_⟩
  exact ⟨rfl, rfl, rfl, rfl⟩

/-- Copying a storage with three sections of one name changes the source: its second section of this name is afterwards the one of the copy. -/
theorem C106_source_counterexample (junk : Nat) : ∃ (g src dst : Grp Nat), [Op.add [97] 1, .add [97] 2, .add [97] 3].foldlM Grp.step Grp.empty = some g ∧ g.copy junk = some (src, dst) ∧
    g.getNode [97] 1 = some (some 1) ∧ src.getNode [97] 1 = some (some 4) ∧ src.order = [0, 1, 2] ∧ dst.order = [3, 4, 5] := by
  refine ⟨_, _, _, rfl, rfl, ?_⟩
  exact ⟨rfl, rfl, rfl, rfl⟩

end Verif.IniDoc
