import Verif.Alloc.CacheAlloc

/-! # C36: theorems about `CacheAlloc` -/

namespace Verif.Alloc.Cache

open Block (alignSize store)

variable {junk : Nat → Nat → Nat} {c : Cfg} {s : St} {live hist B : List (Nat × Nat)} {fl : Nat → List Nat}

theorem head_setHead (s : St) (sz p z : Nat) : head (setHead s sz p) z = if z = sz then p else head s z := by
  unfold head setHead
  by_cases h : z = sz <;> simp [h]

theorem isSome_setHead {s : St} {sz p z : Nat} (h : (s.cache z).isSome = true ∨ z = sz) : ((setHead s sz p).cache z).isSome = true := by
  unfold setHead
  by_cases e : z = sz
  · simp [e]
  · rcases h with h | h
    · simp [e, h]
    · exact absurd h e

theorem new_inv (init base : Nat) (mem : Nat → Nat) (hb : 0 < base) (hm : base % c.align = 0) : Inv c (new init base mem) [] [] [] fun _ => [] where
  chunk := by simp [new, hb, hm]
  cdisj := by simp [new]
  cur := by simp [new]
  root := ⟨(base, init), [], rfl, by simp⟩
  apart := by simp
  chain := fun z => by simp [Chain, head, new]
  fnodup := by simp
  free := by simp
  lnodup := by simp
  small := by simp
  known := by simp
  hist := by simp
  big := by simp
  bigs := by simp

theorem not_self (ha : 0 < c.align) {p sz : Nat} (h : ∀ x ∈ B, Apart p (rsize c sz) x.1 (rsize c x.2)) : (p, sz) ∉ B := by
  intro hp
  have h1 := h _ hp
  have h2 := (rsize_ge c ha sz).2
  simp only [Apart] at h1
  omega

/-- A new block of size `sz` at `p` is added. -/
theorem Inv.carve (h : Inv c s live hist B fl) (ha : 0 < c.align) {sz p cur : Nat} {ch : List (Nat × Nat)} (hsz : sz ≤ c.max)
    (hz : head s sz = 0)
    (hf : ∀ x ∈ B, Apart p (rsize c sz) x.1 (rsize c x.2))
    (hchunk : ∀ k ∈ ch, 0 < k.1 ∧ k.1 % c.align = 0) (hdisj : ch.Pairwise fun a b => Apart a.1 (c.hdr + a.2) b.1 (c.hdr + b.2))
    (hcur : cur % c.align = 0) (hp : p % c.align = 0)
    (hroot : ∃ k ks, ch = k :: ks ∧ (k.1 + c.hdr ≤ p ∧ p + rsize c sz ≤ k.1 + c.hdr + cur ∧ p + rsize c sz ≤ k.1 + c.hdr + k.2) ∧ ∀ x ∈ B,
      ((k.1 + c.hdr ≤ x.1 ∧ x.1 + rsize c x.2 ≤ k.1 + c.hdr + cur ∧ x.1 + rsize c x.2 ≤ k.1 + c.hdr + k.2) ∨
      ∃ k' ∈ ks, k'.1 + c.hdr ≤ x.1 ∧ x.1 + rsize c x.2 ≤ k'.1 + c.hdr + k'.2))
    (hbig : ∀ x ∈ live, x.2 > c.max → ∀ k ∈ ch, Apart x.1 x.2 k.1 (c.hdr + k.2)) :
    Inv c { setHead s sz 0 with chunks := ch, cur := cur } ((p, sz) :: live) ((p, sz) :: hist) ((p, sz) :: B) fl := by
  have hnB := not_self ha hf
  have hnl : (p, sz) ∉ live := fun hm => hnB (h.small _ hm hsz)
  obtain ⟨k0, ks0, -, hr0⟩ := h.root
  obtain ⟨k, ks, hk, hpk, hr⟩ := hroot
  refine ⟨hchunk, hdisj, hcur, ⟨k, ks, hk, ?_⟩, ?_, ?_, h.fnodup, ?_, ?_, ?_, ?_, ?_, ?_, ?_⟩
  · intro x hx
    rcases List.mem_cons.1 hx with rfl | hx
    · exact ⟨hp, hsz, .inl hpk⟩
    · exact ⟨(hr0 x hx).1, (hr0 x hx).2.1, hr x hx⟩
  · exact List.pairwise_cons.2 ⟨hf, h.apart⟩
  · intro z
    have : head ({ setHead s sz 0 with chunks := ch, cur := cur } : St) z = head s z := by
      have := head_setHead s sz 0 z
      unfold head at *
      simp only at *
      rw [this]
      split
      · next e => subst e; exact hz.symm
      · rfl
    rw [this]
    exact h.chain z
  · intro z q hq
    have h1 := h.free z q hq
    refine ⟨by simp [h1.1], ?_⟩
    rw [List.mem_cons]
    rintro (e | e)
    · exact hnB (e ▸ h1.1)
    · exact h1.2 e
  · exact List.nodup_cons.2 ⟨hnl, h.lnodup⟩
  · intro x hx hm
    rcases List.mem_cons.1 hx with rfl | hx
    · simp
    · simp [h.small x hx hm]
  · intro x hx
    refine isSome_setHead (s := s) ?_
    rcases List.mem_cons.1 hx with rfl | hx
    · exact .inr rfl
    · exact .inl (h.known x hx)
  · intro x hx hm
    rcases List.mem_cons.1 hx with rfl | hx
    · simp
    · simp [h.hist x hx hm]
  · intro x hx hm
    rcases List.mem_cons.1 hx with rfl | hx
    · simp only at hm; omega
    · exact hbig x hx hm
  · refine List.pairwise_cons.2 ⟨?_, h.bigs⟩
    intro y _ hm
    simp only at hm; omega

theorem Inv.alloc (h : Inv c s live hist B fl) (ha : 0 < c.align) (hh : c.hdr % c.align = 0) {sz base p : Nat} {s' : St}
    (hs : ∀ n, asked c sz s = some n → SysOk c s live base n) (hb : sz ≤ c.max → base % c.align = 0)
    (he : alloc c sz base s = some (s', p)) : ∃ B' fl', Inv c s' ((p, sz) :: live) ((p, sz) :: hist) B' fl' := by
  unfold Cache.alloc at he
  split at he
  · next hbig =>
    cases he
    have hs := hs sz (by unfold asked; rw [if_pos hbig])
    obtain ⟨h0, h1, h2⟩ := hs
    refine ⟨B, fl, h.chunk, h.cdisj, h.cur, h.root, h.apart, h.chain, h.fnodup, ?_, ?_, ?_, h.known, ?_, ?_, ?_⟩
    · intro z q hq
      refine ⟨(h.free z q hq).1, ?_⟩
      rw [List.mem_cons]
      rintro (e | e)
      · have h3 := (h.free z q hq).1
        obtain ⟨k, ks, hk, hr⟩ := h.root
        have := (hr _ h3).2.1
        cases e
        simp only at this; omega
      · exact (h.free z q hq).2 e
    · refine List.nodup_cons.2 ⟨fun hm => ?_, h.lnodup⟩
      have := h2 _ hm hbig
      simp only [Apart] at this; omega
    · intro x hx hm
      rcases List.mem_cons.1 hx with rfl | hx
      · simp only at hm; omega
      · exact h.small x hx hm
    · intro x hx hm
      rcases List.mem_cons.1 hx with rfl | hx
      · simp only at hm; omega
      · exact h.hist x hx hm
    · intro x hx hm
      rcases List.mem_cons.1 hx with rfl | hx
      · exact h1
      · exact h.big x hx hm
    · exact List.pairwise_cons.2 ⟨fun y hy _ hm => h2 y hy hm, h.bigs⟩
  · next hsm =>
    have hsm : sz ≤ c.max := by omega
    obtain ⟨k, ks, hk, hr⟩ := h.root
    have hkm : k ∈ s.chunks := by simp [hk]
    have hc := h.cdisj
    rw [hk, List.pairwise_cons] at hc
    split at he
    · next hz =>
      unfold greedy at he
      have hk' : (setHead s sz 0).chunks = k :: ks := hk
      rw [hk'] at he
      have hcur' : (setHead s sz 0).cur = s.cur := rfl
      simp only [hcur'] at he
      have hrm := rsize_mod c sz
      split at he
      · next hlt =>
        cases he
        have hs := hs (c.hdr + Arith.fbnextN (s.cur + rsize c sz)) (by
          unfold asked
          rw [if_neg (by omega), if_pos hz, hk]
          simp only [List.head?_cons, Option.bind_some]
          rw [if_pos hlt])
        obtain ⟨h0, h1, h2⟩ := hs
        have hfb := (Arith.C56_fbnext (x := s.cur + rsize c sz) (y := 0)).1
        refine ⟨(base + c.hdr + 0, sz) :: B, fl, h.carve ha hsm hz ?_ ?_ ?_ ?_ ?_ ?_ ?_⟩
        · intro x hx
          obtain ⟨k', hk', h3, h4⟩ := h.mem_chunk hx
          have h5 := h1 k' hk'
          simp only [Apart] at *
          omega
        · intro k' hk'
          rcases List.mem_cons.1 hk' with rfl | hk'
          · exact ⟨h0, hb hsm⟩
          · exact h.chunk k' (hk ▸ hk')
        · refine List.pairwise_cons.2 ⟨fun k' hk' => h1 k' (hk ▸ hk'), hk ▸ h.cdisj⟩
        · simpa using hrm
        · exact add_mod0 (add_mod0 (hb hsm) hh) (by simp)
        · refine ⟨(base, Arith.fbnextN (s.cur + rsize c sz)), k :: ks, rfl, ?_, ?_⟩
          · simp only; omega
          · intro x hx
            obtain ⟨k', hk', h3⟩ := h.mem_chunk hx
            exact .inr ⟨k', hk ▸ hk', h3⟩
        · intro x hx hm k' hk'
          rcases List.mem_cons.1 hk' with rfl | hk'
          · exact (h2 x hx hm).symm
          · exact h.big x hx hm k' (hk ▸ hk')
      · next hlt =>
        cases he
        have := h.carve (sz := sz) (p := k.1 + c.hdr + s.cur) (cur := s.cur + rsize c sz) (ch := k :: ks) ha hsm hz ?_ (hk ▸ h.chunk) (hk ▸ h.cdisj)
          (add_mod0 h.cur hrm) (add_mod0 (add_mod0 (h.chunk k hkm).2 hh) h.cur) ?_ (hk ▸ h.big)
        · exact ⟨(k.1 + c.hdr + s.cur, sz) :: B, fl, this⟩
        · intro x hx
          obtain ⟨-, -, h3 | ⟨k', hk', h3, h4⟩⟩ := hr x hx
          · simp only [Apart]; omega
          · have h5 := hc.1 k' hk'
            simp only [Apart] at *
            omega
        · refine ⟨k, ks, rfl, by omega, ?_⟩
          intro x hx
          obtain ⟨-, -, h3 | h3⟩ := hr x hx
          · exact .inl (by omega)
          · exact .inr h3
    · next hz =>
      split at he
      · cases he
        have hch := h.chain sz
        cases hfl : fl sz with
        | nil => rw [hfl] at hch; exact absurd hch hz
        | cons q l =>
          rw [hfl] at hch
          obtain ⟨e1, e2, e3⟩ := hch
          have hq := h.free sz q (by simp [hfl])
          have hnd := h.fnodup sz
          rw [hfl, List.nodup_cons] at hnd
          rw [e1]
          refine ⟨B, fun z => if z = sz then l else fl z, h.chunk, h.cdisj, h.cur, h.root, h.apart, ?_, ?_, ?_, ?_, ?_, ?_, ?_, ?_, ?_⟩
          · intro z
            rw [head_setHead]
            split
            · exact e3
            · exact h.chain z
          · intro z
            split
            · exact hnd.2
            · exact h.fnodup z
          · intro z r hr
            split at hr
            · next e =>
              subst e
              have h1 := h.free z r (by simp [hfl, hr])
              refine ⟨h1.1, ?_⟩
              rw [List.mem_cons]
              rintro (e | e)
              · cases e; exact hnd.1 hr
              · exact h1.2 e
            · next e =>
              have h1 := h.free z r hr
              refine ⟨h1.1, ?_⟩
              rw [List.mem_cons]
              rintro (e' | e')
              · cases e'; exact e rfl
              · exact h1.2 e'
          · exact List.nodup_cons.2 ⟨hq.2, h.lnodup⟩
          · intro x hx hm
            rcases List.mem_cons.1 hx with rfl | hx
            · exact hq.1
            · exact h.small x hx hm
          · intro x hx
            exact isSome_setHead (.inl (h.known x hx))
          · intro x hx hm
            rcases List.mem_cons.1 hx with rfl | hx
            · exact hq.1
            · exact h.hist x hx hm
          · intro x hx hm
            rcases List.mem_cons.1 hx with rfl | hx
            · simp only at hm; omega
            · exact h.big x hx hm
          · refine List.pairwise_cons.2 ⟨?_, h.bigs⟩
            intro y _ hm
            simp only at hm; omega
      · exact absurd he (by simp)

theorem Inv.dealloc (h : Inv c s live hist B fl) (ha : 0 < c.align) {sz p : Nat} {s' : St} (hp : (p, sz) ∈ live)
    (he : dealloc junk c p sz s = some s') : ∃ fl', Inv c s' (live.erase (p, sz)) hist B fl' := by
  have hne : ∀ x, x ∈ live.erase (p, sz) ↔ x ≠ (p, sz) ∧ x ∈ live := fun x => h.lnodup.mem_erase_iff
  have hsub : ∀ {x}, x ∈ live.erase (p, sz) → x ∈ live := fun hx => List.mem_of_mem_erase hx
  unfold Cache.dealloc at he
  split at he
  · cases he
    exact ⟨fl, h.chunk, h.cdisj, h.cur, h.root, h.apart, h.chain, h.fnodup, fun z q hq => ⟨(h.free z q hq).1, fun hm => (h.free z q hq).2 (hsub hm)⟩,
      h.lnodup.erase _, fun x hx => h.small x (hsub hx), h.known, h.hist, fun x hx => h.big x (hsub hx), h.bigs.sublist List.erase_sublist⟩
  · next hsm =>
    have hsm : sz ≤ c.max := by omega
    have hB := h.small _ hp hsm
    split at he
    · exact absurd he (by simp)
    · next f hf =>
      split at he
      · cases he
        have hf' : head s sz = f := by unfold head; rw [hf]; rfl
        have hp0 : p ≠ 0 := by
          obtain ⟨k, hk, h1, -⟩ := h.mem_chunk hB
          have := (h.chunk k hk).1
          simp only at h1; omega
        have hmem : ∀ z, ∀ q ∈ fl z, store junk s.mem p f q = s.mem q := by
          intro z q hq
          have h1 := h.free z q hq
          have h2 := h.two h1.1 hB (fun e => h1.2 (e ▸ hp))
          have h3 := (rsize_ge c ha sz).2
          have h4 := (rsize_ge c ha z).2
          refine store_other ?_
          simp only [Apart] at h2
          omega
        refine ⟨fun z => if z = sz then p :: fl z else fl z, h.chunk, h.cdisj, h.cur, h.root, h.apart, ?_, ?_, ?_, h.lnodup.erase _,
          fun x hx => h.small x (hsub hx), fun x hx => isSome_setHead (.inl (h.known x hx)), h.hist, fun x hx => h.big x (hsub hx),
          h.bigs.sublist List.erase_sublist⟩
        · intro z
          rw [head_setHead]
          have hz := chain_congr (h.chain z) (hmem z)
          split
          · next e =>
            subst e
            refine ⟨rfl, hp0, ?_⟩
            show Chain (store junk s.mem p f) (store junk s.mem p f p) (fl z)
            rw [store_same, ← hf']
            rw [← hf'] at hz
            exact hz
          · exact hz
        · intro z
          split
          · next e =>
            subst e
            exact List.nodup_cons.2 ⟨fun hm => (h.free z p hm).2 hp, h.fnodup z⟩
          · exact h.fnodup z
        · intro z q hq
          have old : q ∈ fl z → (q, z) ∈ B ∧ (q, z) ∉ live.erase (p, sz) := fun hq =>
            ⟨(h.free z q hq).1, fun hm => (h.free z q hq).2 (hsub hm)⟩
          split at hq
          · next e =>
            subst e
            rcases List.mem_cons.1 hq with rfl | hq
            · exact ⟨hB, fun hm => ((hne _).1 hm).1 rfl⟩
            · exact old hq
          · exact old hq
      · exact absurd he (by simp)

theorem Inv.write (h : Inv c s live hist B fl) (ha : 0 < c.align) {mem' : Nat → Nat}
    (hm : ∀ a, (∀ x ∈ live, a + 8 ≤ x.1 ∨ x.1 + x.2 ≤ a) → mem' a = s.mem a) : Inv c { s with mem := mem' } live hist B fl := by
  refine ⟨h.chunk, h.cdisj, h.cur, h.root, h.apart, fun z => ?_, h.fnodup, h.free, h.lnodup, h.small, h.known, h.hist, h.big, h.bigs⟩
  refine chain_congr (h.chain z) fun q hq => hm q fun x hx => ?_
  have h1 := h.free z q hq
  have h4 := (rsize_ge c ha z).2
  by_cases hb : x.2 > c.max
  · obtain ⟨k, hk, h2, h3⟩ := h.mem_chunk h1.1
    have h5 := h.big x hx hb k hk
    simp only [Apart] at *
    omega
  · have h2 := h.two h1.1 (h.small x hx (by omega)) (fun e => h1.2 (e ▸ hx))
    have h3 := (rsize_ge c ha x.2).1
    simp only [Apart] at h2
    omega

theorem reach_inv (ha : 0 < c.align) (hh : c.hdr % c.align = 0) (h : Reach junk c s live hist) : ∃ B fl, Inv c s live hist B fl := by
  induction h with
  | new init base mem hb hm => exact ⟨_, _, new_inv init base mem hb hm⟩
  | alloc _ hs hb he ih => obtain ⟨B, fl, ih⟩ := ih; exact ih.alloc ha hh hs hb he
  | dealloc _ hp he ih => obtain ⟨B, fl, ih⟩ := ih; obtain ⟨fl', h⟩ := ih.dealloc ha hp he; exact ⟨B, fl', h⟩
  | write _ hm ih => obtain ⟨B, fl, ih⟩ := ih; exact ⟨B, fl, ih.write ha hm⟩

theorem mkCfg_hdr (max align : Nat) : (mkCfg max align).hdr % (mkCfg max align).align = 0 := Nat.mul_mod_left _ _

/-- C36: the blocks in use never overlap, and no two have the same address (also when the size is 0). -/
theorem C36_disjoint {max align : Nat} (ha : 0 < align) (h : Reach junk (mkCfg max align) s live hist) :
    live.Pairwise fun x y => Apart x.1 x.2 y.1 y.2 ∧ x.1 ≠ y.1 := by
  obtain ⟨B, fl, h⟩ := reach_inv (c := mkCfg max align) ha (mkCfg_hdr max align) h
  have hg : ∀ x, x ∈ live → ∀ y, y ∈ live → x ≠ y → (x.2 > (mkCfg max align).max → y.2 > (mkCfg max align).max → Apart x.1 x.2 y.1 y.2) →
      Apart x.1 x.2 y.1 y.2 ∧ x.1 ≠ y.1 := by
    intro x hx y hy hne hbb
    have rx := rsize_ge (mkCfg max align) ha x.2
    have ry := rsize_ge (mkCfg max align) ha y.2
    by_cases bx : x.2 > (mkCfg max align).max <;> by_cases by' : y.2 > (mkCfg max align).max
    · have := hbb bx by'
      simp only [Apart] at *; omega
    · obtain ⟨k, hk, h2, h3⟩ := h.mem_chunk (h.small y hy (by omega))
      have := h.big x hx bx k hk
      simp only [Apart] at *; omega
    · obtain ⟨k, hk, h2, h3⟩ := h.mem_chunk (h.small x hx (by omega))
      have := h.big y hy by' k hk
      simp only [Apart] at *; omega
    · have := h.two (h.small x hx (by omega)) (h.small y hy (by omega)) hne
      simp only [Apart] at *; omega
  have hp := h.bigs
  have hn := h.lnodup
  rw [List.Nodup, List.pairwise_iff_getElem] at hn
  rw [List.pairwise_iff_getElem] at hp ⊢
  intro i j hi hj hij
  exact hg _ (List.getElem_mem hi) _ (List.getElem_mem hj) (hn i j hi hj hij) (hp i j hi hj hij)

/-- C36: a block in use of a cached size lies, with all the bytes requested, in memory obtained from the system, behind the header, and is
aligned; a block of another size does not touch that memory. -/
theorem C36_room {max align : Nat} (ha : 0 < align) (h : Reach junk (mkCfg max align) s live hist) {p sz : Nat} (hp : (p, sz) ∈ live) :
    (sz ≤ max → p % align = 0 ∧ ∃ k ∈ s.chunks, k.1 + 16 ≤ p ∧ p + sz ≤ k.1 + (mkCfg max align).hdr + k.2) ∧
    (max < sz → ∀ k ∈ s.chunks, Apart p sz k.1 ((mkCfg max align).hdr + k.2)) := by
  obtain ⟨B, fl, h⟩ := reach_inv (c := mkCfg max align) ha (mkCfg_hdr max align) h
  refine ⟨fun hm => ?_, fun hm => h.big _ hp hm⟩
  have hB := h.small _ hp hm
  obtain ⟨k, hk, h1, h2⟩ := h.mem_chunk hB
  obtain ⟨_, _, _, hr⟩ := h.root
  have h3 := (rsize_ge (mkCfg max align) ha sz).1
  have h4 : 16 ≤ (mkCfg max align).hdr := (Arith.C56_alignSize (sz := 16) ha).2.1
  exact ⟨(hr _ hB).1, k, hk, by simp only at h1; omega, by simp only at h2; omega⟩

/-- C36: of all the blocks of cached sizes returned in a history, any two are the same block for the same size, or they do not overlap:
memory given out for one size is never given out for another. -/
theorem C36_same_class {max align : Nat} (ha : 0 < align) (h : Reach junk (mkCfg max align) s live hist) {x y : Nat × Nat}
    (hx : x ∈ hist) (hy : y ∈ hist) (bx : x.2 ≤ max) (by' : y.2 ≤ max) : x = y ∨ (Apart x.1 x.2 y.1 y.2 ∧ x.1 ≠ y.1) := by
  obtain ⟨B, fl, h⟩ := reach_inv (c := mkCfg max align) ha (mkCfg_hdr max align) h
  by_cases e : x = y
  · exact .inl e
  · refine .inr ?_
    have := h.two (h.hist x hx bx) (h.hist y hy by') e
    have rx := rsize_ge (mkCfg max align) ha x.2
    have ry := rsize_ge (mkCfg max align) ha y.2
    simp only [Apart] at *; omega

/-- C36: no history runs into undefined behaviour: `Alloc` always returns, and so does `Dealloc` of a block in use. -/
theorem C36_no_ub {max align : Nat} (ha : 0 < align) (h : Reach junk (mkCfg max align) s live hist) (sz base : Nat) :
    (∃ r, alloc (mkCfg max align) sz base s = some r) ∧
    ∀ p, (p, sz) ∈ live → ∃ s', dealloc junk (mkCfg max align) p sz s = some s' := by
  obtain ⟨B, fl, h⟩ := reach_inv (c := mkCfg max align) ha (mkCfg_hdr max align) h
  obtain ⟨k, ks, hk, hr⟩ := h.root
  constructor
  · unfold alloc
    split
    · exact ⟨_, rfl⟩
    · split
      · unfold greedy
        rw [show (setHead s sz 0).chunks = k :: ks from hk]
        simp only
        split <;> exact ⟨_, rfl⟩
      · next hz =>
        have hch := h.chain sz
        cases hfl : fl sz with
        | nil => rw [hfl] at hch; exact absurd hch hz
        | cons q l =>
          rw [hfl] at hch
          rw [hch.1, if_pos (h.bdd ha (z := sz) (by simp [hfl]))]
          exact ⟨_, rfl⟩
  · intro p hp
    unfold dealloc
    split
    · exact ⟨_, rfl⟩
    · next hsm =>
      have hB := h.small _ hp (by simp only; omega)
      have hkn := h.known _ hB
      obtain ⟨f, hf⟩ := Option.isSome_iff_exists.1 hkn
      simp only at hf
      rw [hf]
      simp only
      rw [if_pos]
      · exact ⟨_, rfl⟩
      · obtain ⟨k, hk, h1, h2⟩ := h.mem_chunk hB
        have := (rsize_ge (mkCfg max align) ha sz).2
        unfold inChunk
        rw [List.any_eq_true]
        exact ⟨k, hk, by simp only [decide_eq_true_eq]; simp only at h1 h2; omega⟩

/-- C36: a freed block of a cached size is used again by the next request of that size, without system memory. -/
theorem C36_reuse {max align : Nat} (ha : 0 < align) (h : Reach junk (mkCfg max align) s live hist) {p sz : Nat} {s1 : St}
    (hp : (p, sz) ∈ live) (hsz : sz ≤ max) (hd : dealloc junk (mkCfg max align) p sz s = some s1) (base : Nat) :
    asked (mkCfg max align) sz s1 = none ∧ ∃ s2, alloc (mkCfg max align) sz base s1 = some (s2, p) := by
  have hr := Reach.dealloc h hp hd
  obtain ⟨⟨r, he⟩, -⟩ := C36_no_ub ha hr sz base
  obtain ⟨B, fl, h⟩ := reach_inv (c := mkCfg max align) ha (mkCfg_hdr max align) h
  have hB := h.small _ hp hsz
  have hp0 : p ≠ 0 := by
    obtain ⟨k, hk, h1, -⟩ := h.mem_chunk hB
    have := (h.chunk k hk).1
    simp only at h1; omega
  have hhd : head s1 sz = p := by
    unfold dealloc at hd
    rw [if_neg (by simp only [mkCfg]; omega)] at hd
    split at hd
    · exact absurd hd (by simp)
    · split at hd
      · cases hd; rw [head_setHead]; simp
      · exact absurd hd (by simp)
  refine ⟨?_, ?_⟩
  · unfold asked
    rw [if_neg (by simp only [mkCfg]; omega), if_neg (by rw [hhd]; exact hp0)]
  · unfold alloc at he ⊢
    rw [if_neg (by simp only [mkCfg]; omega), if_neg (by rw [hhd]; exact hp0), hhd] at he ⊢
    split at he
    · next e => rw [if_pos e]; exact ⟨_, rfl⟩
    · exact absurd he (by simp)

/-- C36 counterexample for `CachePolicy::allocate` (`CacheAlloc.h:149-152`): when an allocation shrinks, the old block is freed with the new
size, so a block taken for 16 bytes comes back for 8 bytes. -/
theorem C36_policy_shrink_counterexample :
    (((alloc (mkCfg 100 1) 16 1000 (new 64 1000 fun _ => 0)).bind fun r =>
      (realloc (fun _ _ => 0) (mkCfg 100 1) 8 r.2 16 0 r.1).bind fun q =>
        (alloc (mkCfg 100 1) 8 0 q.1).map fun t => (r.2, q.2, t.2)) : Option (Nat × Nat × Nat)) = some (1016, 1032, 1016) := by
  decide +kernel

/-- The hypotheses are met: a history with a cached block freed and used again, and a large block. -/
example : ∃ s, Reach (fun _ _ => 0) (mkCfg 100 1) s [(1016, 16), (5000, 200), (1032, 3)] [(1016, 16), (5000, 200), (1032, 3), (1016, 16)] := by
  have h0 : Reach (fun _ _ => 0) (mkCfg 100 1) (new 64 1000 fun _ => 0) [] [] := .new 64 1000 _ (by decide) (by decide)
  have h1 := h0.alloc (sz := 16) (base := 0) (s' := _) (p := 1016) (fun n hn => absurd hn (by
    rw [show asked (mkCfg 100 1) 16 (new 64 1000 fun _ => 0) = none by decide]; simp)) (fun _ => by decide) rfl
  have h2 := h1.alloc (sz := 3) (base := 0) (s' := _) (p := 1032) (fun n hn => absurd hn (by
    rw [show asked (mkCfg 100 1) 3 _ = none by decide]; simp)) (fun _ => by decide) rfl
  have h3 := h2.alloc (sz := 200) (base := 5000) (s' := _) (p := 5000) (fun n hn => by
    have : n = 200 := by
      rw [show asked (mkCfg 100 1) 200 _ = some 200 by decide] at hn
      exact (Option.some.inj hn).symm
    subst this
    refine ⟨by decide, ?_, ?_⟩
    · intro k hk
      have : k = (1000, 64) := List.mem_singleton.1 hk
      subst this
      exact .inr (by decide)
    · intro x hx
      have : x = (1032, 3) ∨ x = (1016, 16) := by simpa using hx
      rcases this with rfl | rfl <;> exact fun h => absurd h (by decide)) (fun h => absurd h (by decide)) rfl
  have h4 := h3.dealloc (p := 1016) (sz := 16) (s' := _) (by simp) rfl
  have h5 := h4.alloc (sz := 16) (base := 0) (s' := _) (p := 1016) (fun n hn => absurd hn (by
    rw [show asked (mkCfg 100 1) 16 _ = none by decide]; simp)) (fun _ => by decide) rfl
  exact ⟨_, h5⟩

end Verif.Alloc.Cache
