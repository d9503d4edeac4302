import Verif.Trie.Build

namespace Verif.Trie

variable {w : Nat} {fold : Nat → Nat}

theorem icmp_eq {a b : Int} : icmp a b = 0 ↔ a = b := by
  unfold icmp
  split
  · omega
  · split <;> omega

theorem sgn_inj {a b : Nat} (ha : a ≤ 127) (hb : b < 256) (h : sgn a = sgn b) : a = b := by
  unfold sgn at h
  split at h <;> split at h <;> omega

theorem cmpNode_mono {a b c : Nat} (hab : a < b) (hb : b ≤ 127) :
    (cmpNode b c < 0 → cmpNode a c < 0) ∧ (0 < cmpNode a c → 0 < cmpNode b c) := by
  have h1 : sgn a = a := by unfold sgn; rw [if_pos (by omega)]
  have h2 : sgn b = b := by unfold sgn; rw [if_pos (by omega)]
  unfold cmpNode icmp
  rw [h1, h2]
  generalize sgn c = x
  refine ⟨fun h => ?_, fun h => ?_⟩ <;> split at h <;> (try split at h) <;> split <;> (try split) <;> omega

/-- The search among siblings finds the group of the letter. -/
theorem sibling_spec {gs : List (Nat × List Word)} (hg : Groups fold gs) (M : Mem) (cnt c : Nat) (hc : c < 256) (hcap : cnt < M.cap)
    (hfit : cnt + gs.length ≤ M.cap) (hlen : (M.node cnt).clen = gs.length)
    (hchr : ∀ (j : Nat) (g : Nat × List Word), gs[j]? = some g → (M.node (cnt + j)).chr = g.1) :
    (sibling M cnt c = some (-1) ∧ ∀ g ∈ gs, g.1 ≠ c) ∨
    (∃ (j : Nat) (g : Nat × List Word), sibling M cnt c = some (j : Int) ∧ gs[j]? = some g ∧ g.1 = c) := by
  unfold sibling
  rw [rd, if_pos hcap, Option.bind_some, hlen]
  split
  · rw [letters, if_pos hfit, Option.bind_some]
    have hl : (List.range gs.length).map (fun j => (M.node (cnt + j)).chr) = gs.map (·.1) := by
      apply List.ext_getElem?
      intro j
      by_cases hj : j < gs.length
      · have hj2 : gs[j]? = some gs[j] := by simp [hj]
        simp [hj, hchr j _ hj2]
      · simp [hj]
    rw [hl, Sorted.searchExact]
    have hspec := Sorted.exactLoop_spec cmpNode (gs.map (·.1)) c 0 gs.length (by simp) (by
      intro i j x y _ hij hj hx hy
      simp only [List.getElem?_map, Option.map_eq_some_iff] at hx hy
      obtain ⟨gx, hx, rfl⟩ := hx
      obtain ⟨gy, hy, rfl⟩ := hy
      have hp := hg.pos gy (List.mem_of_getElem? hy)
      obtain ⟨hi1, rfl⟩ := List.getElem?_eq_some_iff.1 hx
      obtain ⟨hj1, rfl⟩ := List.getElem?_eq_some_iff.1 hy
      exact cmpNode_mono (List.pairwise_iff_getElem.1 hg.sorted i j hi1 hj1 hij) hp.2) _ 0 ((gs.length : Int) - 1) rfl (by simp) (by omega)
      (by intro i x _ hi; omega) (by intro i x hi hi2; omega)
    rcases hspec with ⟨i, x, h1, _, h2, h3, h4⟩ | ⟨h1, h2⟩
    · simp only [List.getElem?_map, Option.map_eq_some_iff] at h3
      obtain ⟨g, h3, rfl⟩ := h3
      have hp := hg.pos g (List.mem_of_getElem? h3)
      exact Or.inr ⟨i, g, h1, h3, sgn_inj hp.2 hc (icmp_eq.1 h4)⟩
    · refine Or.inl ⟨h1, fun g hgm e => ?_⟩
      obtain ⟨i, hi, rfl⟩ := List.getElem_of_mem hgm
      exact h2 i gs[i].1 (Nat.zero_le _) hi (by simp [hi]) (by rw [e]; exact icmp_eq.2 rfl)
  · split
    · next h1 =>
      match gs, h1 with
      | [g], _ =>
        have := hchr 0 g (by simp)
        rw [Nat.add_zero] at this
        rw [this]
        split
        · next hne => exact Or.inl ⟨rfl, by simpa using hne⟩
        · next he =>
          refine Or.inr ⟨0, g, rfl, by simp, ?_⟩
          exact Decidable.byContradiction fun h => he h
    · next h0 h1 =>
      have : gs = [] := List.eq_nil_of_length_eq_zero (by omega)
      subst this
      exact Or.inl ⟨rfl, by simp⟩

theorem tot_flat : ∀ {gs : List (Nat × List Word)}, Groups fold gs → gs.length + totTl gs ≤ tot (flat gs)
  | [], _ => by simp [totTl, tot, flat]
  | g :: gs, h => by
    have ih := tot_flat h.tail
    have h1 := tot_tl g.2 fun s hs => by
      obtain ⟨a, t, h1, -⟩ := h.head g (by simp) s hs
      simp [h1]
    have h2 : g.2.length ≠ 0 := fun e => h.ne g (by simp) (List.eq_nil_of_length_eq_zero e)
    have h3 : totTl (g :: gs) = tot (tl g.2) + totTl gs := by simp [totTl]
    rw [flat_cons, tot_append, h3, List.length_cons]
    omega

theorem pairwise_tl {c : Nat} : ∀ (g : List Word), (∀ s ∈ g, ∃ a t, s.2 = a :: t ∧ fold a = c) →
    g.Pairwise (fun a b => cmpWord fold a b < 0) → (tl g).Pairwise fun a b => cmpWord fold a b < 0 := by
  intro g hh hp
  unfold tl
  rw [List.pairwise_map]
  refine hp.imp_of_mem ?_
  intro x y hx hy hxy
  obtain ⟨a, t, h1, h2⟩ := hh x hx
  obtain ⟨b, u, h3, h4⟩ := hh y hy
  rw [cmpWord, h1, h3] at hxy
  rw [cmpWord]
  simp only [h1, h3, List.tail_cons]
  rcases cmp_cons _ _ _ _ hxy with h | h
  · omega
  · exact h.2

theorem init_spec (h0 : fold 0 = 0) : ∀ (f : Nat) (ss : List Word) (cnt : Nat) (m : Mem), ss ≠ [] →
    ss.Pairwise (fun a b => cmpWord fold a b < 0) → (∀ s ∈ ss, ∀ c ∈ s.2, 1 ≤ fold c ∧ fold c ≤ 127) → (∀ s ∈ ss, s.2.length < f) →
    (cnt = 0 → ∀ s ∈ ss, s.2 ≠ []) → 0 < m.cap → m.cap < 2 ^ w → cnt ≤ m.cap → 2 * (cnt + tot ss) ≤ 2 ^ w →
    (∀ i, cnt ≤ i → i < m.cap → m.node i = blank w) →
    ∃ m' r', init w fold f ss cnt m = some (m', r') ∧ Placed w fold ss cnt m m' r' := by
  intro f
  induction f with
  | zero =>
    intro ss cnt m hne _ _ hlen
    obtain ⟨s, hs⟩ := List.exists_mem_of_ne_nil _ hne
    exact absurd (hlen s hs) (by omega)
  | succ f ih =>
    intro ss cnt m hne hsort hch hlen hz hc0 hcw hcnt hsz hfr
    -- the part after the word that ends here
    have hend : ∃ (m1 : Mem) (ss1 : List Word) (W : Nat → Nat),
        ending w fold ss ((cnt + 2 ^ w - 1) % 2 ^ w) m = some (m1, ss1) ∧ (∀ s ∈ ss1, s ∈ ss) ∧ (∀ s ∈ ss1, s.2 ≠ []) ∧
        ss1.Pairwise (fun a b => cmpWord fold a b < 0) ∧ m.cap ≤ m1.cap ∧ m1.cap < 2 ^ w ∧ (∀ i, i < cnt → m1.node i = m.node i) ∧
        (∀ i, cnt ≤ i → i < m1.cap → m1.node i = raw w W i) ∧ (∀ i, i ≠ cnt → W i = 2 ^ w - 1) ∧
        (∀ i, m1.cap ≤ i → W i = 2 ^ w - 1) ∧ W cnt = find w fold ss [] ∧
        (∀ c q, find w fold ss (c :: q) = find w fold ss1 (c :: q)) ∧
        ((ss1 = [] → cnt < m1.cap ∧ 1 ≤ tot ss) ∧ tot ss1 ≤ tot ss) := by
      cases ss with
      | nil => exact absurd rfl hne
      | cons s ss =>
        obtain ⟨ix, t⟩ := s
        rw [List.pairwise_cons] at hsort
        have hrest : ∀ s ∈ ss, s.2 ≠ [] := by
          intro s hs e
          have := hsort.1 s hs
          rw [cmpWord, e] at this
          cases t <;> simp [cmpStr] at this
        have hfind0 : ∀ l : List Word, (∀ s ∈ l, s.2 ≠ []) → find w fold l [] = 2 ^ w - 1 := fun l hl =>
          find_none l [] fun s hs e => hl s hs (by simpa using e)
        cases t with
        | nil =>
          have hpos : 0 < cnt := by
            rcases Nat.eq_zero_or_pos cnt with h | h
            · exact absurd rfl (hz h (ix, []) (by simp))
            · exact h
          have htc := tot_cons (ix, []) ss
          simp only [List.length_nil, Nat.zero_add] at htc
          have hr : (cnt + 2 ^ w - 1) % 2 ^ w = cnt - 1 := by
            rw [show cnt + 2 ^ w - 1 = cnt - 1 + 2 ^ w by omega, Nat.add_mod_right]
            exact Nat.mod_eq_of_lt (by omega)
          have hr1 : cnt - 1 + 1 = cnt := by omega
          have hrm : (cnt - 1 + 1) % 2 ^ w = cnt := by rw [hr1]; exact Nat.mod_eq_of_lt (by omega)
          obtain ⟨hc1, hc2, hc3, hc4, hc5⟩ := checkSize_spec (w := w) (lo := cnt) (W := fun _ => 2 ^ w - 1) hc0 hcw hcnt (by omega)
            (fun _ _ => rfl) hfr
          refine ⟨⟨(checkSize w cnt m).cap, fun j => if j = cnt then ⟨0, 2 ^ w - 1, 0, ix⟩ else (checkSize w cnt m).node j⟩, ss,
            fun i => if i = cnt then ix else 2 ^ w - 1, ?_, fun s hs => by simp [hs], hrest, hsort.2, hc2, hc3, ?_, ?_, ?_, ?_, ?_, ?_,
            fun _ => ⟨hc1, by omega⟩, by omega⟩
          · rw [ending, if_pos (by simp [letter, h0]), hr, hrm, hr1, rd, if_pos hc1, Option.bind_some, wr, if_pos hc1,
              hc5 cnt (Nat.le_refl _) hc1]
            rfl
          · intro i hi
            simp only
            rw [if_neg (by omega), hc4 i (by omega)]
          · intro i hi hi2
            simp only [raw]
            split
            · rfl
            · exact hc5 i hi hi2
          · intro i hi
            simp only [hi, if_false]
          · intro i hi
            simp only at hi ⊢
            rw [if_neg (by omega)]
          · simp [find]
          · intro c q
            exact find_append (w := w) [(ix, [])] ss (c :: q) (by simp)
        | cons a t =>
          have ha := hch (ix, a :: t) (by simp) a (by simp)
          refine ⟨m, (ix, a :: t) :: ss, fun _ => 2 ^ w - 1, ?_, fun s hs => hs, ?_, List.pairwise_cons.2 hsort, Nat.le_refl _, hcw,
            fun _ _ => rfl, hfr, fun _ _ => rfl, fun _ _ => rfl, ?_, fun _ _ => rfl, by simp, Nat.le_refl _⟩
          · rw [ending, if_neg (by simp [letter]; omega)]
          · intro s hs
            rcases List.mem_cons.1 hs with rfl | hs
            · simp
            · exact hrest s hs
          · rw [hfind0]
            intro s hs
            rcases List.mem_cons.1 hs with rfl | hs
            · simp
            · exact hrest s hs
    obtain ⟨m1, ss1, W, he1, hsub, hne1, hsort1, hcap1, hcapw1, hkeep1, hraw1, hWc, hWcap, hWf, hfind, hnil, htot1⟩ := hend
    obtain ⟨gs, hg, rfl⟩ := groups_exist (fold := fold) ss1 hne1 (fun s hs => hch s (hsub s hs)) hsort1
    have hrr : ((cnt + 2 ^ w - 1) % 2 ^ w + 1) % 2 ^ w = cnt := by
      rw [Nat.mod_add_mod, show cnt + 2 ^ w - 1 + 1 = cnt + 2 ^ w by omega, Nat.add_mod_right]
      exact Nat.mod_eq_of_lt (by omega)
    obtain ⟨m2, r2, h1, h2, h3, h4, h5, h6, h7, h8⟩ := pass1_spec W gs 0 cnt ((cnt + 2 ^ w - 1) % 2 ^ w) m1 hg
      (fun g hgm => (hg.pos g hgm).1) hrr (Nat.mod_lt _ (by omega)) (by omega) hcapw1 (by omega) (by omega) hWcap hraw1
    have htf := tot_flat hg
    have hpos : 0 < cnt + gs.length ∨ gs = [] := by
      cases gs with
      | nil => exact Or.inr rfl
      | cons g gs => left; rw [List.length_cons]; omega
    -- the second pass
    have hp2 : ∃ m' r', ∃ ch : Nat → Nat, pass2 (init w fold f) gs.length cnt (flat gs) (cnt + gs.length) m2 = some (m', r') ∧
      cnt + gs.length ≤ r' ∧ r' ≤ cnt + gs.length + totTl gs ∧ m2.cap ≤ m'.cap ∧
      m'.cap < 2 ^ w ∧ r' ≤ m'.cap ∧ (∀ x, x < cnt → m'.node x = m2.node x) ∧
      (∀ x, cnt + gs.length ≤ x → x < cnt + gs.length → m'.node x = m2.node x) ∧
      (∀ x, r' ≤ x → x < m'.cap → gs ≠ [] → m'.node x = blank w) ∧ (gs = [] → m' = m2 ∧ r' = cnt) ∧
      (∀ (j : Nat) (g : Nat × List Word), gs[j]? = some g → m'.node (cnt + j) = ⟨g.1, ch j, g.2.length, W (cnt + j)⟩) ∧
      (∀ M : Mem, r' ≤ M.cap → (∀ x, cnt + gs.length ≤ x → x < r' → M.node x = m'.node x) → ∀ q : List Nat, (∀ c ∈ q, fold c < 256) →
        ∀ (j : Nat) (g : Nat × List Word), gs[j]? = some g → lookup w fold M q (ch j) = some (find w fold (tl g.2) q)) := by
      rcases hpos with hpos | hnilgs
      · by_cases hgn : gs = []
        · subst hgn
          exact ⟨m2, cnt, fun _ => 0, rfl, Nat.le_refl _, by simp [totTl], Nat.le_refl _, h4, by simpa using h5, fun _ _ => rfl,
            fun _ _ _ => rfl, by simp, fun _ => ⟨rfl, rfl⟩, by simp, by simp⟩
        obtain ⟨m', r', ch, g1, g2, g3, g4, g5, g6, g7, g8, g9, g10, g11⟩ := pass2_spec (w := w) (fold := fold) (init w fold f) W gs cnt
          (cnt + gs.length) m2 hg (fun g hgm => by
            intro cnt' m' hc' hcap0 hcapw hcle hsz' hfr'
            have hgin : ∀ s ∈ g.2, s ∈ flat gs := fun s hs => by
              simp only [flat, List.mem_flatten, List.mem_map]
              exact ⟨g.2, ⟨g, hgm, rfl⟩, hs⟩
            have hsubl : g.2.Sublist (flat gs) := List.sublist_flatten_of_mem (List.mem_map_of_mem hgm)
            refine ih (tl g.2) cnt' m' ?_ ?_ ?_ ?_ (by omega) hcap0 hcapw hcle hsz' hfr'
            · simpa [tl] using hg.ne g hgm
            · exact pairwise_tl g.2 (hg.head g hgm) (hsort1.sublist hsubl)
            · intro s hs c hc
              simp only [tl, List.mem_map] at hs
              obtain ⟨s0, hs0, rfl⟩ := hs
              exact hch s0 (hsub s0 (hgin s0 hs0)) c (List.mem_of_mem_tail hc)
            · intro s hs
              simp only [tl, List.mem_map] at hs
              obtain ⟨s0, hs0, rfl⟩ := hs
              have hl1 := hlen s0 (hsub s0 (hgin s0 hs0))
              obtain ⟨a, t, ht, -⟩ := hg.head g hgm s0 hs0
              rw [ht] at hl1 ⊢
              simp only [List.length_cons, List.tail_cons] at hl1 ⊢
              omega) (Nat.le_refl _) hpos (by omega) h4 h5 (by omega)
          (fun x hx hx2 => by
            rw [h7 x hx hx2, raw, blank, hWc x (by
              have : gs.length ≠ 0 := fun e => hgn (List.eq_nil_of_length_eq_zero e)
              omega)]) h8
        exact ⟨m', r', ch, g1, g2, g3, g4, g5, g6, g7, g8, fun x hx hx2 _ => g9 x hx hx2, fun e => absurd e hgn, g10, g11⟩
      · subst hnilgs
        exact ⟨m2, cnt, fun _ => 0, rfl, Nat.le_refl _, by simp [totTl], Nat.le_refl _, h4, by simpa using h5, fun _ _ => rfl,
            fun _ _ _ => rfl, by simp, fun _ => ⟨rfl, rfl⟩, by simp, by simp⟩
    obtain ⟨m3, r3, ch, g1, g2, g3, g4, g5, g6, g7, -, g9, g9n, g10, g11⟩ := hp2
    have hcnt3 : cnt < m3.cap := by
      by_cases hgn : gs = []
      · have := (hnil (by rw [hgn]; rfl)).1
        omega
      · have : gs.length ≠ 0 := fun e => hgn (List.eq_nil_of_length_eq_zero e)
        omega
    have hk : (r2 + 1) % 2 ^ w - cnt = gs.length := by omega
    -- the node at `cnt` before its length is set
    have hnodec : m3.node cnt = ⟨(m3.node cnt).chr, (m3.node cnt).child, (m3.node cnt).clen, W cnt⟩ := by
      by_cases hgn : gs = []
      · obtain ⟨rfl, -⟩ := g9n hgn
        subst hgn
        rw [h7 cnt (by simp) hcnt3]
        rfl
      · have hl : 0 < gs.length := by
          have : gs.length ≠ 0 := fun e => hgn (List.eq_nil_of_length_eq_zero e)
          omega
        have := g10 0 gs[0] (by simp [hl])
        rw [Nat.add_zero] at this
        rw [this]
    refine ⟨⟨m3.cap, fun j => if j = cnt then { m3.node cnt with clen := gs.length } else m3.node j⟩,
      if gs.length = 0 then 1 + r3 else r3, ?_, ?_⟩
    · rw [init, he1, Option.bind_some]
      simp only
      rw [h1, Option.bind_some]
      simp only
      rw [hk, h2, g1, Option.bind_some]
      simp only
      rw [rd, if_pos hcnt3, Option.bind_some, wr, if_pos hcnt3]
      rfl
    · have hr3 : gs.length = 0 → gs = [] := List.eq_nil_of_length_eq_zero
      refine ⟨?_, ?_, by simp only; omega, g5, ?_, ?_, ?_, ?_⟩
      · split <;> omega
      · split
        · next h =>
          have := (hnil (by rw [hr3 h]; rfl)).2
          have := (g9n (hr3 h)).2
          omega
        · omega
      · simp only
        split
        · next h =>
          have := (g9n (hr3 h)).2
          omega
        · exact g6
      · intro i hi
        simp only
        rw [if_neg (by omega), g7 i hi, h6 i hi, hkeep1 i hi]
      · intro i hi hi2
        simp only at hi2 ⊢
        by_cases hgn : gs = []
        · obtain ⟨rfl, rfl⟩ := g9n hgn
          subst hgn
          simp only [List.length_nil, if_true] at hi
          rw [if_neg (by omega), h7 i (by simp; omega) hi2, raw, blank, hWc i (by omega)]
        · have : gs.length ≠ 0 := fun e => hgn (hr3 e)
          rw [if_neg this] at hi
          rw [if_neg (by omega), g9 i hi hi2 hgn]
      · intro M hM hag q hq
        simp only at hag
        have hMc : cnt < M.cap := by split at hM <;> omega
        have hin : ∀ i, cnt ≤ i → i < (if gs.length = 0 then 1 + r3 else r3) → M.node i =
            if i = cnt then { m3.node cnt with clen := gs.length } else m3.node i := hag
        have hM0 := hin cnt (Nat.le_refl _) (by split <;> omega)
        rw [if_pos rfl] at hM0
        cases q with
        | nil =>
          rw [lookup, rd, if_pos hMc, Option.map_some, hM0, hnodec, ← hWf]
        | cons c q =>
          have hsib := sibling_spec hg M cnt (fold c) (hq c (by simp)) hMc (by split at hM <;> omega) (by rw [hM0]) (by
            intro j g hj
            have hjl : j < gs.length := (List.getElem?_eq_some_iff.1 hj).1
            have := g10 j g hj
            rw [hin (cnt + j) (by omega) (by rw [if_neg (by omega)]; omega)]
            split
            · next e =>
              rw [← e, this]
            · rw [this])
          rw [lookup, hfind]
          rcases hsib with ⟨s1, s2⟩ | ⟨j, g, s1, s2, s3⟩
          · rw [s1, Option.bind_some, if_pos (by omega), find_flat_none hg c q s2]
          · have hjl : j < gs.length := (List.getElem?_eq_some_iff.1 s2).1
            have hj10 := g10 j g s2
            rw [s1, Option.bind_some, if_neg (by omega), Int.toNat_natCast, rd, if_pos (by split at hM <;> omega), Option.bind_some]
            have hchild : (M.node (cnt + j)).child = ch j := by
              rw [hin (cnt + j) (by omega) (by rw [if_neg (by omega)]; omega)]
              split
              · next e =>
                rw [← e, hj10]
              · rw [hj10]
            rw [hchild, find_flat_some hg c q j g s2 s3]
            refine g11 M (by split at hM <;> omega) (fun x hx hx2 => ?_) q (fun c hc => hq c (by simp [hc])) j g s2
            rw [hin x (by omega) (by rw [if_neg (by omega)]; omega), if_neg (by omega)]

end Verif.Trie
