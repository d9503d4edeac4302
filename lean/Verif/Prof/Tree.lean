import Verif.Prof.Flat

/-! # The tree and the heat map -/

namespace Verif.Prof

variable {S : Nat → Prop} {E : List Entry} {node : List Nat → Option Node}

/-- The line of a path. -/
def lineIn (E : List Entry) (p : List Nat) : Line :=
  ⟨(p.length : Int) - 1, p.getLast?.getD 0, mean ((E.filter fun e => e.path = p).map Entry.time), (E.filter fun e => e.path = p).length⟩

/-- The level of a place is the number of the regions around the one that the place belongs to. -/
def Level (E : List Entry) (k : List Nat) (level : Int) : Prop :=
  (k = [] → level = -1) ∧ ∀ e ∈ E, ∀ p a lvl, p ++ [a] <+: e.path → 1 ≤ lvl → lvl ≤ (digits a).length → k = key p ++ (digits a).take lvl → level = p.length

/-- A place within a number is not the end of a region. -/
theorem not_term (H : Holds S E node) {e : Entry} (he : e ∈ E) {p : List Nat} {a l : Nat} (hp : p ++ [a] <+: e.path) (h1 : 1 ≤ l) (h2 : l < (digits a).length) :
    ¬∃ x ∈ E, key x.path = key p ++ (digits a).take l := by
  rintro ⟨x, hx, hk⟩
  have hke : key (p ++ [a]) <+: key e.path := by
    obtain ⟨r, hr⟩ := hp
    rw [← hr, key_append _ r]; exact List.prefix_append _ _
  have hpre : key x.path <+: key (p ++ [a]) := by
    rw [hk, key_append, key_single]
    exact (List.prefix_append_right_inj _).mpr (List.take_prefix _ _)
  have hS : ∀ b ∈ p ++ [a], S b := fun b hb => H.ids e he b (hp.subset hb)
  have hxp := key_prefix H.free H.pos _ _ (H.ids x hx) hS hpre
  have hlen := congrArg List.length hk
  rw [List.length_append, List.length_take] at hlen
  rcases Nat.lt_or_ge x.path.length (p ++ [a]).length with h | h
  · have : x.path <+: p := List.prefix_of_prefix_length_le hxp (List.prefix_append _ _) (by simp at h; omega)
    obtain ⟨r, hr⟩ := this
    rw [← hr, key_append, List.length_append] at hlen
    omega
  · have := hxp.eq_of_length_le h
    rw [this, key_append, key_single, List.length_append] at hlen
    omega

theorem level_child (H : Holds S E node) (h16 : ∀ a, S a → a % 16 ≠ 0) {k : List Nat} {id lvl : Nat} {level : Int} (hk : Known E k id lvl) (hl : Level E k level) {n : Node} (hn : node k = some n) (i : Nat) :
    Level E (k ++ [i]) (level + if (if n.total.isSome then (0, 0) else (id, lvl)).1 = 0 then 1 else 0) := by
  refine ⟨fun h => absurd h (by simp), ?_⟩
  intro e he p a l hp h1 h2 hki
  have hkey : ∀ q, q <+: e.path → key q <+: key e.path := fun q ⟨r, hr⟩ => by rw [← hr, key_append]; exact List.prefix_append _ _
  obtain ⟨m, rfl⟩ : ∃ m, l = m + 1 := ⟨l - 1, by omega⟩
  have hget := digits_get a m (by omega)
  have htake : (digits a).take (m + 1) = (digits a).take m ++ [a / 16 ^ m % 16] := by
    rw [List.take_succ, hget]; rfl
  rw [htake, ← List.append_assoc] at hki
  have hk' := (List.append_inj' hki rfl).1
  have hpe : p <+: e.path := (List.prefix_append _ _).trans hp
  cases m with
  | zero =>
    rw [List.take_zero, List.append_nil] at hk'
    by_cases hp0 : p = []
    · subst hp0
      have hk0 : k = [] := hk'
      have hid : id = 0 := by
        rcases hk with ⟨-, h, -⟩ | hk
        · exact h
        · obtain ⟨q, b, g1, g2, g3, g4, g5⟩ := hk e he (by rw [hk0]; exact List.nil_prefix)
          rw [hk0] at g4
          have := congrArg List.length g4
          rw [List.length_append, List.length_take, List.length_nil] at this
          omega
      rw [hl.1 hk0]
      have : (if n.total.isSome = true then ((0 : Nat), (0 : Nat)) else (id, lvl)).1 = 0 := by split <;> simp [hid]
      rw [if_pos this]
      simp
    · obtain ⟨q, b, rfl⟩ : ∃ q b, p = q ++ [b] := ⟨p.dropLast, p.getLast hp0, (List.dropLast_append_getLast hp0).symm⟩
      obtain ⟨x, hx, hxp⟩ := H.down e he (q ++ [b]) (by simp) hpe
      obtain ⟨n', hn', ht⟩ := (H.term k).mpr ⟨x, hx, by rw [hxp, hk']⟩
      rw [hn] at hn'; cases hn'
      simp only [ht, if_true]
      have hb := digits_ne_nil (H.pos b (H.ids e he b (hpe.subset (by simp))))
      rw [hl.2 e he q b (digits b).length hpe (List.length_pos_iff.mpr hb) (Nat.le_refl _) (by rw [hk', List.take_length, key_append, key_single])]
      simp
  | succ m =>
    have hnt : ¬n.total.isSome := by
      intro ht
      obtain ⟨x, hx, hxk⟩ := (H.term k).mp ⟨n, hn, ht⟩
      exact not_term H he hp (Nat.le_add_left 1 m) (by omega) ⟨x, hx, by rw [hxk, hk']⟩
    have hid : id ≠ 0 := by
      rcases hk with ⟨h, -, -⟩ | hk
      · rw [h] at hk'
        have := congrArg List.length hk'
        rw [List.length_append, List.length_take, List.length_nil] at this
        omega
      · have hkp : k <+: key e.path := by
          refine List.IsPrefix.trans ?_ (hkey _ hp)
          rw [hk', key_append, key_single]
          exact (List.prefix_append_right_inj _).mpr (List.take_prefix _ _)
        obtain ⟨q, b, g1, g2, g3, g4, g5⟩ := hk e he hkp
        intro h0
        have hb := h16 b (H.ids e he b (g1.subset (by simp)))
        apply hb
        rw [h0] at g5
        have hd : 16 ∣ 16 ^ lvl := Dvd.dvd.trans (by simp) (Nat.pow_dvd_pow 16 g2)
        have := Nat.mod_mod_of_dvd b hd
        rw [← g5] at this
        exact this.symm
    simp only [hnt]
    have : ¬((if False then ((0 : Nat), (0 : Nat)) else (id, lvl)).1 = 0) := by simpa using hid
    rw [if_neg (by simpa using hid), hl.2 e he p a (m + 1) hp (by omega) (by omega) hk']
    simp

theorem treeOut_ok (H : Holds S E node) (h16 : ∀ a, S a → a % 16 ≠ 0) {B : Nat} (hB : ∀ e ∈ E, (key e.path).length ≤ B) : ∀ (fuel : Nat) (k : List Nat) (id : Nat) (level : Int) (lvl : Nat),
    Known E k id lvl → Level E k level → k.length ≤ B + 1 → B + 2 ≤ fuel + k.length →
    ∃ L : List (List Nat), treeOut fuel node k id level lvl = some (L.map (lineIn E)) ∧ (∀ p, p ∈ L ↔ ∃ e ∈ E, e.path = p ∧ k <+: key p) ∧ L.Pairwise fun p q => key p < key q
  | 0, k, _, _, _, _, _, h1, h2 => by omega
  | fuel + 1, k, id, level, lvl, hk, hl, h1, h2 => by
    rw [treeOut]
    cases hn : node k with
    | none =>
      refine ⟨[], rfl, fun p => ⟨fun h => (by cases h), ?_⟩, List.Pairwise.nil⟩
      rintro ⟨e, he, rfl, hp⟩
      have := (H.dom k).mpr (.inr ⟨e, he, hp⟩)
      rw [hn] at this; cases this
    | some n =>
      have hlen : k.length ≤ B := by
        rcases (H.dom k).mp (by rw [hn]; rfl) with h | ⟨e, he, hp⟩
        · rw [h]; exact Nat.zero_le _
        · exact Nat.le_trans hp.length_le (hB e he)
      have hp := passed H hk hn
      have hlc := level_child H h16 hk hl hn
      dsimp only
      generalize hq : (if n.total.isSome = true then ((0 : Nat), (0 : Nat)) else (id, lvl)) = q at *
      obtain ⟨id', lvl'⟩ := q
      dsimp only at hp hlc ⊢
      have hex : ∀ i, ∃ L : List (List Nat), treeOut fuel node (k ++ [i]) ((id' ||| (i <<< (4 * lvl'))) % 65536) (level + if id' = 0 then 1 else 0) (lvl' + 1) = some (L.map (lineIn E)) ∧
          (∀ p, p ∈ L ↔ ∃ e ∈ E, e.path = p ∧ k ++ [i] <+: key p) ∧ L.Pairwise fun p q => key p < key q := fun i =>
        treeOut_ok H h16 hB fuel (k ++ [i]) _ _ _ (known_child H i (hp i)) (hlc i) (by simp; omega) (by simp; omega)
      obtain ⟨C, hC⟩ : ∃ C : Nat → List (List Nat), ∀ i, treeOut fuel node (k ++ [i]) ((id' ||| (i <<< (4 * lvl'))) % 65536) (level + if id' = 0 then 1 else 0) (lvl' + 1) = some ((C i).map (lineIn E)) ∧
          (∀ p, p ∈ C i ↔ ∃ e ∈ E, e.path = p ∧ k ++ [i] <+: key p) ∧ (C i).Pairwise fun p q => key p < key q := ⟨fun i => (hex i).choose, fun i => (hex i).choose_spec⟩
      rw [mapM_some (h := fun i => (C i).map (lineIn E)) _ fun i _ => (hC i).1, Option.map_some]
      -- the places below
      have hsub : ∀ p, p ∈ (List.range 16).flatMap C ↔ ∃ e ∈ E, e.path = p ∧ k <+: key p ∧ k ≠ key p := by
        intro p
        rw [List.mem_flatMap]
        constructor
        · rintro ⟨i, -, h⟩
          obtain ⟨e, he, h3, h4⟩ := ((hC i).2.1 p).mp h
          refine ⟨e, he, h3, (List.prefix_append _ _).trans h4, fun h => ?_⟩
          rw [← h] at h4
          have := h4.length_le
          simp at this
        · rintro ⟨e, he, h3, ⟨r, hr⟩, h5⟩
          cases r with
          | nil => rw [List.append_nil] at hr; exact absurd hr h5
          | cons d r =>
            have hd : d < 16 := key_lt p d (by rw [← hr]; simp)
            exact ⟨d, by simp [hd], ((hC d).2.1 p).mpr ⟨e, he, h3, ⟨r, by rw [← hr]; simp⟩⟩⟩
      have hsort : ((List.range 16).flatMap C).Pairwise fun p q => key p < key q := by
        rw [List.pairwise_flatMap]
        refine ⟨fun i _ => (hC i).2.2, ?_⟩
        refine List.Pairwise.imp ?_ (List.pairwise_lt_range (n := 16))
        intro i j hij p hp q hq
        obtain ⟨_, _, _, h3⟩ := ((hC i).2.1 p).mp hp
        obtain ⟨_, _, _, h4⟩ := ((hC j).2.1 q).mp hq
        exact lt_of_digit hij h3 h4
      have hflat : ((List.range 16).map fun i => (C i).map (lineIn E)).flatten = ((List.range 16).flatMap C).map (lineIn E) := by
        rw [List.map_flatMap]; rfl
      rw [hflat]
      cases ht : n.total with
      | none =>
        refine ⟨(List.range 16).flatMap C, by simp, fun p => ?_, hsort⟩
        rw [hsub p]
        constructor
        · rintro ⟨e, he, h3, h4, -⟩
          exact ⟨e, he, h3, h4⟩
        · rintro ⟨e, he, h3, h4⟩
          refine ⟨e, he, h3, h4, fun h => ?_⟩
          obtain ⟨m, hm, hmt⟩ := (H.term k).mpr ⟨e, he, by rw [h3, h]⟩
          rw [hn] at hm; cases hm
          rw [ht] at hmt; cases hmt
      | some t =>
        obtain ⟨x, hx, hxk⟩ := (H.term k).mp ⟨n, hn, by rw [ht]; rfl⟩
        have hfil : (E.filter fun e => key e.path = k) = E.filter fun e => e.path = x.path := by
          refine List.filter_congr fun e he => ?_
          rw [decide_eq_decide]
          constructor
          · intro h; exact key_inj H.free H.pos (H.ids e he) (H.ids x hx) (by rw [h, hxk])
          · intro h; rw [h, hxk]
        have hst := H.stat k
        rw [foldl_mean, hfil, Verif.Prof.stat, hn] at hst
        simp only [ht, Option.getD_some, Prod.mk.injEq] at hst
        have hline : lineIn E x.path = ⟨level, id, n.avg, t⟩ := by
          obtain ⟨q, b, hqb⟩ : ∃ q b, x.path = q ++ [b] := ⟨x.path.dropLast, x.path.getLast (H.ne x hx), (List.dropLast_append_getLast (H.ne x hx)).symm⟩
          have hb := digits_ne_nil (H.pos b (H.ids x hx b (by rw [hqb]; simp)))
          have hlev := hl.2 x hx q b (digits b).length (by rw [hqb]) (List.length_pos_iff.mpr hb) (Nat.le_refl _) (by rw [← hxk, hqb, List.take_length, key_append, key_single])
          rw [lineIn, known_last H hk hx hxk, ← hst.1, ← hst.2.2, hlev, hqb]
          simp
        refine ⟨x.path :: (List.range 16).flatMap C, by simp [hline], fun p => ?_, ?_⟩
        · rw [List.mem_cons, hsub p]
          constructor
          · rintro (h | ⟨e, he, h3, h4, -⟩)
            · exact ⟨x, hx, h.symm, by rw [h, hxk]⟩
            · exact ⟨e, he, h3, h4⟩
          · rintro ⟨e, he, h3, h4⟩
            by_cases h : k = key p
            · left
              rw [← h3] at h ⊢
              exact key_inj H.free H.pos (H.ids e he) (H.ids x hx) (by rw [← h, hxk])
            · exact .inr ⟨e, he, h3, h4, h⟩
        · refine List.Pairwise.cons (fun p hp => ?_) hsort
          obtain ⟨e, he, h3, h4, h5⟩ := (hsub p).mp hp
          rw [hxk]
          exact lt_of_prefix h4 h5

/-! ## Heat -/

theorem digits_small {a : Nat} (h0 : 0 < a) (h : a < 16) : digits a = [a] := by
  rw [digits_pos h0, Nat.mod_eq_of_lt h, Nat.div_eq_of_lt h, digits_zero]

theorem key_small {p : List Nat} (h : ∀ a ∈ p, 0 < a ∧ a < 16) : key p = p := by
  induction p with
  | nil => rfl
  | cons a p ih =>
    rw [key_cons, digits_small (h a (by simp)).1 (h a (by simp)).2, ih fun b hb => h b (by simp [hb])]
    rfl

/-- The nodes of the heat map at and below a path. -/
def Heat (E : List Entry) (k : List Nat) (x : List Nat × ℚ) : Prop :=
  (∃ e ∈ E, k <+: e.path ∧ x = (e.path, mean ((E.filter fun y => y.path = e.path).map Entry.time))) ∨
    ∃ e ∈ E, k <+: e.path ∧ (∃ y ∈ E, e.path <+: y.path ∧ e.path ≠ y.path) ∧ x = (e.path ++ [0], mean ((E.filter fun y => y.path = e.path).map Entry.own))

theorem heatOut_ok (H : Holds S E node) (hS : ∀ a, S a → a < 16) {B : Nat} (hB : ∀ e ∈ E, e.path.length ≤ B) : ∀ (fuel : Nat) (k above : List Nat) (id lvl : Nat),
    (k = [] ∧ above = [] ∧ id = 0 ∧ lvl = 0) ∨ k = above ++ [id] → k.length ≤ B + 1 → B + 2 ≤ fuel + k.length →
    ∃ out, heatOut fuel node k above id lvl = some out ∧ ∀ x, x ∈ out ↔ Heat E k x
  | 0, k, _, _, _, _, h1, h2 => by omega
  | fuel + 1, k, above, id, lvl, hk, h1, h2 => by
    have hkey : ∀ e ∈ E, key e.path = e.path := fun e he => key_small fun a ha => ⟨H.pos a (H.ids e he a ha), hS a (H.ids e he a ha)⟩
    rw [heatOut]
    cases hn : node k with
    | none =>
      have hno : ∀ e ∈ E, ¬k <+: e.path := fun e he hp => by
        have := (H.dom k).mpr (.inr ⟨e, he, by rw [hkey e he]; exact hp⟩)
        rw [hn] at this; cases this
      refine ⟨[], rfl, fun x => ⟨fun h => (by cases h), ?_⟩⟩
      rintro (⟨e, he, hp, -⟩ | ⟨e, he, hp, -⟩)
      · exact absurd hp (hno e he)
      · exact absurd hp (hno e he)
    | some n =>
      have hlen : k.length ≤ B := by
        rcases (H.dom k).mp (by rw [hn]; rfl) with h | ⟨e, he, hp⟩
        · rw [h]; exact Nat.zero_le _
        · rw [hkey e he] at hp; exact Nat.le_trans hp.length_le (hB e he)
      have hsplit : ∀ x, (∃ i < 16, Heat E (k ++ [i]) x) ↔ (∃ e ∈ E, (k <+: e.path ∧ k ≠ e.path) ∧ x = (e.path, mean ((E.filter fun y => y.path = e.path).map Entry.time))) ∨
          ∃ e ∈ E, (k <+: e.path ∧ k ≠ e.path) ∧ (∃ y ∈ E, e.path <+: y.path ∧ e.path ≠ y.path) ∧ x = (e.path ++ [0], mean ((E.filter fun y => y.path = e.path).map Entry.own)) := by
        intro x
        have hsub : ∀ e ∈ E, (∃ i < 16, k ++ [i] <+: e.path) ↔ k <+: e.path ∧ k ≠ e.path := by
          intro e he
          constructor
          · rintro ⟨i, -, h⟩
            refine ⟨(List.prefix_append _ _).trans h, fun e' => ?_⟩
            rw [← e'] at h
            have := h.length_le
            simp at this
          · rintro ⟨⟨r, hr⟩, hne⟩
            cases r with
            | nil => rw [List.append_nil] at hr; exact absurd hr hne
            | cons d r => exact ⟨d, hS d (H.ids e he d (by rw [← hr]; simp)), ⟨r, by rw [← hr]; simp⟩⟩
        constructor
        · rintro ⟨i, hi, ⟨e, he, h3, h4⟩ | ⟨e, he, h3, h4⟩⟩
          · exact .inl ⟨e, he, (hsub e he).mp ⟨i, hi, h3⟩, h4⟩
          · exact .inr ⟨e, he, (hsub e he).mp ⟨i, hi, h3⟩, h4⟩
        · rintro (⟨e, he, h3, h4⟩ | ⟨e, he, h3, h4⟩)
          · obtain ⟨i, hi, h5⟩ := (hsub e he).mpr h3
            exact ⟨i, hi, .inl ⟨e, he, h5, h4⟩⟩
          · obtain ⟨i, hi, h5⟩ := (hsub e he).mpr h3
            exact ⟨i, hi, .inr ⟨e, he, h5, h4⟩⟩
      have hrun : ∀ (g : Nat → Nat) (g2 : List Nat) (l : Nat), (∀ i < 16, k ++ [i] = g2 ++ [g i]) → ∃ C : Nat → List (List Nat × ℚ),
          ((List.range 16).mapM fun i => heatOut fuel node (k ++ [i]) g2 (g i) l) = some ((List.range 16).map C) ∧ ∀ i < 16, ∀ x, x ∈ C i ↔ Heat E (k ++ [i]) x := by
        intro g g2 l hg
        have hex : ∀ i, ∃ out, i < 16 → heatOut fuel node (k ++ [i]) g2 (g i) l = some out ∧ ∀ x, x ∈ out ↔ Heat E (k ++ [i]) x := by
          intro i
          by_cases hi : i < 16
          · obtain ⟨out, h3⟩ := heatOut_ok H hS hB fuel (k ++ [i]) g2 (g i) l (.inr (hg i hi)) (by simp; omega) (by simp; omega)
            exact ⟨out, fun _ => h3⟩
          · exact ⟨[], fun h => absurd h hi⟩
        refine ⟨fun i => (hex i).choose, mapM_some _ fun i hi => ((hex i).choose_spec (by simpa using hi)).1, fun i hi => ((hex i).choose_spec hi).2⟩
      dsimp only
      by_cases ht : n.total.isSome
      · rw [if_pos ht]
        obtain ⟨x, hx, hxk⟩ := (H.term k).mp ⟨n, hn, ht⟩
        rw [hkey x hx] at hxk
        have hk : k = above ++ [id] := by
          rcases hk with ⟨h, -⟩ | h
          · rw [h] at hxk; exact absurd hxk (H.ne x hx)
          · exact h
        obtain ⟨C, hC, hC2⟩ := hrun (fun i => i) (above ++ [id]) 0 (fun i _ => by rw [hk])
        rw [hC, Option.map_some]
        have hfil : (E.filter fun e => key e.path = k) = E.filter fun e => e.path = k :=
          List.filter_congr fun e he => by rw [hkey e he]
        have hst := H.stat k
        rw [foldl_mean, hfil, Verif.Prof.stat, hn] at hst
        simp only [Prod.mk.injEq] at hst
        have hmem : ∀ x, x ∈ ((List.range 16).map C).flatten ↔ ∃ i < 16, Heat E (k ++ [i]) x := by
          intro x
          rw [← List.flatMap_def, List.mem_flatMap]
          constructor
          · rintro ⟨i, hi, h⟩
            have hi : i < 16 := by simpa using hi
            exact ⟨i, hi, (hC2 i hi x).mp h⟩
          · rintro ⟨i, hi, h⟩
            exact ⟨i, by simpa using hi, (hC2 i hi x).mpr h⟩
        generalize hfl : ((List.range 16).map C).flatten = fl at *
        have hnil : fl ≠ [] ↔ ∃ y ∈ E, k <+: y.path ∧ k ≠ y.path := by
          constructor
          · intro h
            obtain ⟨z, hz⟩ := List.exists_mem_of_ne_nil _ h
            rcases (hsplit z).mp ((hmem z).mp hz) with ⟨e, he, h3, -⟩ | ⟨e, he, h3, -⟩
            · exact ⟨e, he, h3⟩
            · exact ⟨e, he, h3⟩
          · rintro ⟨y, hy, h3⟩ h
            have := (hmem _).mpr ((hsplit _).mpr (.inl ⟨y, hy, h3, rfl⟩))
            rw [h] at this; cases this
        refine ⟨_, rfl, fun z => ?_⟩
        rw [List.mem_append, List.mem_cons, hmem z, hsplit z, ← hk, hst.1]
        have hcode : (z ∈ if fl = [] then [] else [(above ++ [id, 0], n.codeavg)]) ↔ (∃ y ∈ E, k <+: y.path ∧ k ≠ y.path) ∧ z = (k ++ [0], mean ((E.filter fun y => y.path = k).map Entry.own)) := by
          rw [← hnil, hst.2.1, hk]
          by_cases h : fl = []
          · simp [h]
          · simp [h]
        rw [hcode]
        constructor
        · rintro ((h | ⟨e, he, h3, h4⟩ | ⟨e, he, h3, h4⟩) | ⟨h3, h4⟩)
          · exact .inl ⟨x, hx, by rw [hxk], by rw [h, hxk]⟩
          · exact .inl ⟨e, he, h3.1, h4⟩
          · exact .inr ⟨e, he, h3.1, h4⟩
          · exact .inr ⟨x, hx, by rw [hxk], by rw [hxk]; exact h3, by rw [h4, hxk]⟩
        · rintro (⟨e, he, h3, h4⟩ | ⟨e, he, h3, h5, h4⟩)
          · by_cases h : k = e.path
            · rw [← h] at h4; exact .inl (.inl h4)
            · exact .inl (.inr (.inl ⟨e, he, ⟨h3, h⟩, h4⟩))
          · by_cases h : k = e.path
            · rw [← h] at h4 h5; exact .inr ⟨h5, h4⟩
            · exact .inl (.inr (.inr ⟨e, he, ⟨h3, h⟩, h5, h4⟩))
      · rw [if_neg ht]
        have hnt : ∀ e ∈ E, e.path ≠ k := fun e he h => by
          obtain ⟨m, hm, hmt⟩ := (H.term k).mpr ⟨e, he, by rw [hkey e he, h]⟩
          rw [hn] at hm; cases hm
          exact ht hmt
        have hroot : k = [] := by
          rcases (H.dom k).mp (by rw [hn]; rfl) with h | ⟨e, he, hp⟩
          · exact h
          · rw [hkey e he] at hp
            by_cases h : k = []
            · exact h
            · obtain ⟨y, hy, hyk⟩ := H.down e he k h hp
              exact absurd hyk (hnt y hy)
        have hk : above = [] ∧ id = 0 ∧ lvl = 0 := by
          rcases hk with ⟨-, h⟩ | h
          · exact h
          · rw [hroot] at h; simp at h
        obtain ⟨rfl, rfl, rfl⟩ := hk
        obtain ⟨C, hC, hC2⟩ := hrun (fun i => (0 ||| (i <<< (4 * 0))) % 65536) [] (0 + 1) (fun i hi => by
          rw [hroot]; simp; omega)
        rw [hC, Option.map_some]
        refine ⟨_, rfl, fun z => ?_⟩
        have : z ∈ ((List.range 16).map C).flatten ↔ ∃ i < 16, Heat E (k ++ [i]) z := by
          rw [← List.flatMap_def, List.mem_flatMap]
          constructor
          · rintro ⟨i, hi, h⟩
            have hi : i < 16 := by simpa using hi
            exact ⟨i, hi, (hC2 i hi z).mp h⟩
          · rintro ⟨i, hi, h⟩
            exact ⟨i, by simpa using hi, (hC2 i hi z).mpr h⟩
        rw [this, hsplit z]
        constructor
        · rintro (⟨e, he, h3, h4⟩ | ⟨e, he, h3, h4⟩)
          · exact .inl ⟨e, he, h3.1, h4⟩
          · exact .inr ⟨e, he, h3.1, h4⟩
        · rintro (⟨e, he, h3, h4⟩ | ⟨e, he, h3, h4⟩)
          · exact .inl ⟨e, he, ⟨h3, fun h => hnt e he h.symm⟩, h4⟩
          · exact .inr ⟨e, he, ⟨h3, fun h => hnt e he h.symm⟩, h4⟩

end Verif.Prof
