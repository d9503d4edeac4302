import Verif.Alloc.RingAlloc
import Verif.Alloc.CacheAlloc

/-! # C37: theorems about `RingAllocVoid` -/

namespace Verif.Alloc.Ring

open Block (store)
open Cache (store_other store_same)

variable {junk : Nat → Nat → Nat} {hdr : Nat} {s : St} {live : List Blk} {g : List Nat}

/-- Node headers included, two blocks do not overlap. -/
def NApart (x y : Blk) : Prop := Apart (x.p - 16) (x.num + 16) (y.p - 16) (y.num + 16)

/-- `g` is the list of free buckets. -/
structure GInv (hdr : Nat) (s : St) (g : List Nat) (live : List Blk) : Prop where
  gnodup : g.Nodup
  gmem : ∀ b ∈ g, ∃ k, s.bk b = some k ∧ k.wl = true
  pos : ∀ b k, s.bk b = some k → 0 < b ∧ 0 < k.sz ∧ k.res ≤ k.sz
  disj : ∀ b b' k k', s.bk b = some k → s.bk b' = some k' → b ≠ b' → Apart b (hdr + k.sz) b' (hdr + k'.sz)
  rd : ∀ b k, s.bk b = some k → k.rd = live.countP (fun x => decide (x.b = b)) ∧ (k.wl = true → k.rd = 0)
  blk : ∀ x ∈ live, s.mem (x.p - 8) = x.b ∧ ∃ k, s.bk x.b = some k ∧ x.b + hdr + 16 ≤ x.p ∧ x.p + x.num ≤ x.b + hdr + k.res
  pair : live.Pairwise NApart

/-- The current bucket exists and is not locked. -/
def CurOk (s : St) : Prop := ∃ k, s.bk s.cur = some k ∧ k.wl = false

theorem setB_same (s : St) (b : Nat) (k : Option Bkt) : (setB s b k).bk b = k := by simp [setB]

theorem setB_ne (s : St) {b x : Nat} (k : Option Bkt) (h : x ≠ b) : (setB s b k).bk x = s.bk x := by simp [setB, h]

theorem setB_id {s : St} {b : Nat} {k : Bkt} (h : s.bk b = some k) : setB s b (some k) = s := by
  have : (fun x => if x = b then some k else s.bk x) = s.bk := by
    funext x
    split
    · next e => rw [e, h]
    · rfl
  unfold setB
  rw [this]

/-- A bucket without readers has no block in use. -/
theorem GInv.empty (h : GInv hdr s g live) {b : Nat} {k : Bkt} (hb : s.bk b = some k) (h0 : k.rd = 0) : ∀ x ∈ live, x.b ≠ b := by
  intro x hx e
  have h1 := (h.rd b k hb).1
  rw [h0] at h1
  have := List.countP_eq_zero.1 h1.symm x hx
  simp [e] at this

/-- Changing the record of a bucket in which there is nothing. -/
theorem GInv.setEmpty (h : GInv hdr s g live) {b : Nat} {k k' : Bkt} (hb : s.bk b = some k) (h0 : k.rd = 0) (hs : k'.sz = k.sz) (hr : k'.res ≤ k'.sz)
    (hrd : k'.rd = 0) (hg : b ∈ g → k'.wl = true) : GInv hdr (setB s b (some k')) g live := by
  have hem := h.empty hb h0
  refine ⟨h.gnodup, ?_, ?_, ?_, ?_, ?_, h.pair⟩
  · intro c hc
    by_cases e : c = b
    · subst e; exact ⟨k', setB_same .., hg hc⟩
    · rw [setB_ne _ _ e]; exact h.gmem c hc
  · intro c l hl
    by_cases e : c = b
    · subst e
      rw [setB_same] at hl; cases hl
      have := h.pos c k hb
      exact ⟨this.1, by omega, hr⟩
    · rw [setB_ne _ _ e] at hl; exact h.pos c l hl
  · intro c c' l l' hl hl' hne
    have hsz : ∀ c l, (setB s b (some k')).bk c = some l → ∃ l', s.bk c = some l' ∧ l'.sz = l.sz := by
      intro c l hl
      by_cases e : c = b
      · subst e
        rw [setB_same] at hl; cases hl
        exact ⟨k, hb, hs.symm⟩
      · rw [setB_ne _ _ e] at hl; exact ⟨l, hl, rfl⟩
    obtain ⟨m, hm, e1⟩ := hsz c l hl
    obtain ⟨m', hm', e2⟩ := hsz c' l' hl'
    rw [← e1, ← e2]
    exact h.disj c c' m m' hm hm' hne
  · intro c l hl
    by_cases e : c = b
    · subst e
      rw [setB_same] at hl; cases hl
      refine ⟨?_, fun _ => hrd⟩
      rw [hrd, ← h0]
      exact (h.rd c k hb).1
    · rw [setB_ne _ _ e] at hl; exact h.rd c l hl
  · intro x hx
    obtain ⟨h1, l, h2⟩ := h.blk x hx
    exact ⟨h1, l, by rw [setB_ne _ _ (hem x hx)]; exact h2⟩

/-- Freeing a bucket in which there is nothing. -/
theorem GInv.free (h : GInv hdr s g live) {b : Nat} {k : Bkt} (hb : s.bk b = some k) (h0 : k.rd = 0) {g' : List Nat} (hg : g'.Nodup)
    (hsub : ∀ x ∈ g', x ∈ g ∧ x ≠ b) : GInv hdr (setB s b none) g' live := by
  have hem := h.empty hb h0
  have hold : ∀ {c l}, (setB s b none).bk c = some l → s.bk c = some l := by
    intro c l hl
    by_cases e : c = b
    · subst e; rw [setB_same] at hl; cases hl
    · rwa [setB_ne _ _ e] at hl
  refine ⟨hg, ?_, fun c l hl => h.pos c l (hold hl), fun c c' l l' hl hl' => h.disj c c' l l' (hold hl) (hold hl'), fun c l hl => h.rd c l (hold hl), ?_, h.pair⟩
  · intro c hc
    rw [setB_ne _ _ (hsub c hc).2]; exact h.gmem c (hsub c hc).1
  · intro x hx
    obtain ⟨h1, l, h2⟩ := h.blk x hx
    exact ⟨h1, l, by rw [setB_ne _ _ (hem x hx)]; exact h2⟩

/-- The invariant does not depend on the other fields. -/
theorem GInv.congr {s' : St} (h : GInv hdr s g live) (hb : s'.bk = s.bk) (hm : s'.mem = s.mem) : GInv hdr s' g live := by
  refine ⟨h.gnodup, ?_, ?_, ?_, ?_, ?_, h.pair⟩
  · rw [hb]; exact h.gmem
  · rw [hb]; exact h.pos
  · rw [hb]; exact h.disj
  · rw [hb]; exact h.rd
  · rw [hb, hm]; exact h.blk

theorem popGc_ok {n : Nat} : ∀ {g : List Nat} {s : St}, GInv hdr s g live → ∃ s1 r, popGc n g s = some (s1, r) ∧ s1.last = s.last ∧
    (r = none → s1.gc = [] ∧ GInv hdr s1 [] live) ∧
    ∀ b, r = some b → GInv hdr s1 (b :: s1.gc) live ∧ ∃ k, s1.bk b = some k ∧ n ≤ k.sz
  | [], s, h => ⟨_, _, rfl, rfl, fun _ => ⟨rfl, h.congr rfl rfl⟩, by simp⟩
  | b :: g, s, h => by
    obtain ⟨k, hk, hw⟩ := h.gmem b (by simp)
    have h0 := (h.rd b k hk).2 hw
    have hnd := List.nodup_cons.1 h.gnodup
    unfold popGc
    rw [hk, Option.bind_some]
    split
    · exact popGc_ok (h.free hk h0 hnd.2 fun x hx => ⟨by simp [hx], fun e => hnd.1 (e ▸ hx)⟩)
    · next hlt =>
      refine ⟨_, _, rfl, rfl, by simp, ?_⟩
      intro b' hb'
      cases hb'
      exact ⟨h.congr rfl rfl, k, hk, by omega⟩

/-- `_genBucket` gives a fresh, unlocked and empty bucket that is large enough. -/
theorem replace_ok {n base : Nat} (h : GInv hdr s s.gc live) (hf : ∀ s1, callocIn n s = some s1 → Fresh hdr s1 base) :
    ∃ s', replace n base s = some s' ∧ GInv hdr s' s'.gc live ∧ ∃ k, s'.bk s'.cur = some k ∧ k.wl = false ∧ k.res = 0 ∧ n ≤ k.sz := by
  have h' : GInv hdr { s with last := if s.last < n then n else s.last } s.gc live := h.congr rfl rfl
  obtain ⟨s1, r, he, hl, hn, hs⟩ := popGc_ok (n := n) h'
  unfold callocIn at hf
  unfold replace genBucket
  rw [he] at hf ⊢
  simp only [Option.bind_some] at hf ⊢
  cases r with
  | none =>
    obtain ⟨hg, h1⟩ := hn rfl
    obtain ⟨hp, hfr⟩ := hf s1 (by simp)
    have hfb := (Arith.C56_fbnext (x := s1.last) (y := 0)).1
    have hln : n ≤ s1.last := by rw [hl]; simp only; split <;> omega
    have hno : s1.bk base = none := by
      cases hb : s1.bk base with
      | none => rfl
      | some k =>
        have h2 := hfr base k hb
        have := (h1.pos base k hb).2.1
        simp only [Apart] at h2; omega
    refine ⟨_, rfl, ?_, ⟨Arith.fbnextN s1.last, 0, 0, false⟩, ?_, rfl, rfl, by simp only; omega⟩
    · have hgc : s1.gc = [] := hg
      refine ⟨?_, ?_, ?_, ?_, ?_, ?_, h1.pair⟩
      · show s1.gc.Nodup
        rw [hgc]; simp
      · intro b hb
        have hb : b ∈ s1.gc := hb
        rw [hgc] at hb; simp at hb
      · intro b k hk
        by_cases e : b = base
        · subst e
          have hk : (setB { s1 with last := Arith.fbnextN s1.last } b (some ⟨Arith.fbnextN s1.last, 0, 0, false⟩)).bk b = some k := hk
          rw [setB_same] at hk; cases hk
          exact ⟨hp, by simp only; omega, by simp⟩
        · have hk : (setB { s1 with last := Arith.fbnextN s1.last } base (some ⟨Arith.fbnextN s1.last, 0, 0, false⟩)).bk b = some k := hk
          rw [setB_ne _ _ e] at hk
          exact h1.pos b k hk
      · intro b b' k k' hk hk' hne
        change (setB { s1 with last := Arith.fbnextN s1.last } base (some ⟨Arith.fbnextN s1.last, 0, 0, false⟩)).bk b = some k at hk
        have hk' : (setB { s1 with last := Arith.fbnextN s1.last } base (some ⟨Arith.fbnextN s1.last, 0, 0, false⟩)).bk b' = some k' := hk'
        by_cases e : b = base
        · subst e
          rw [setB_same] at hk; cases hk
          rw [setB_ne _ _ (Ne.symm hne)] at hk'
          exact hfr b' k' hk'
        · rw [setB_ne _ _ e] at hk
          by_cases e' : b' = base
          · subst e'
            rw [setB_same] at hk'; cases hk'
            exact (hfr b k hk).symm
          · rw [setB_ne _ _ e'] at hk'
            exact h1.disj b b' k k' hk hk' hne
      · intro b k hk
        have hk : (setB { s1 with last := Arith.fbnextN s1.last } base (some ⟨Arith.fbnextN s1.last, 0, 0, false⟩)).bk b = some k := hk
        by_cases e : b = base
        · subst e
          rw [setB_same] at hk; cases hk
          refine ⟨?_, fun _ => rfl⟩
          symm
          rw [List.countP_eq_zero]
          intro x hx
          obtain ⟨-, l, h2, -⟩ := h1.blk x hx
          simp only [decide_eq_true_eq]
          intro e
          rw [e, hno] at h2; cases h2
        · rw [setB_ne _ _ e] at hk
          exact h1.rd b k hk
      · intro x hx
        obtain ⟨h2, l, h3, h4⟩ := h1.blk x hx
        refine ⟨h2, l, ?_, h4⟩
        show (setB { s1 with last := Arith.fbnextN s1.last } base (some ⟨Arith.fbnextN s1.last, 0, 0, false⟩)).bk x.b = some l
        rw [setB_ne _ _ (fun e => by rw [e, hno] at h3; cases h3)]
        exact h3
    · show (setB { s1 with last := Arith.fbnextN s1.last } base (some ⟨Arith.fbnextN s1.last, 0, 0, false⟩)).bk base = _
      rw [setB_same]
  | some b =>
    obtain ⟨h1, k, hk, hkn⟩ := hs b rfl
    obtain ⟨k2, hk2, hw⟩ := h1.gmem b (by simp)
    rw [hk] at hk2; cases hk2
    have h0 := (h1.rd b k hk).2 hw
    have hnd := List.nodup_cons.1 h1.gnodup
    have h2 : GInv hdr s1 s1.gc live := ⟨hnd.2, fun c hc => h1.gmem c (by simp [hc]), h1.pos, h1.disj, h1.rd, h1.blk, h1.pair⟩
    have h3 := h2.setEmpty (k' := { k with res := 0, wl := false }) hk h0 rfl (by simp) h0 (fun hm => absurd hm hnd.1)
    refine ⟨{ setB s1 b (some { k with res := 0, wl := false }) with cur := b }, ?_, h3.congr rfl rfl, { k with res := 0, wl := false }, setB_same .., rfl, rfl, hkn⟩
    simp [finish, hk]

/-- The state after a block was reserved in the current bucket and its header was written. -/
theorem GInv.place (h : GInv hdr s s.gc live) {k : Bkt} (hk : s.bk s.cur = some k) (hw : k.wl = false) {num : Nat} (hn : k.res + (num + 16) ≤ k.sz) :
    let s1 := setB s s.cur (some { k with res := k.res + (num + 16), rd := k.rd + 1 })
    GInv hdr (Ring.place junk hdr (num + 16) k.res s1).1 (Ring.place junk hdr (num + 16) k.res s1).1.gc
      (⟨(Ring.place junk hdr (num + 16) k.res s1).2, num, s.cur⟩ :: live) := by
  intro s1
  have hap : ∀ y ∈ live, NApart ⟨s.cur + hdr + k.res + 16, num, s.cur⟩ y := by
    intro y hy
    obtain ⟨-, l, h2, h3, h4⟩ := h.blk y hy
    simp only [NApart, Apart]
    by_cases e : y.b = s.cur
    · rw [e] at h2 h3 h4
      rw [hk] at h2; cases h2
      omega
    · have h5 := h.disj _ _ _ _ h2 hk e
      have h6 := (h.pos _ _ h2).2.2
      simp only [Apart] at h5
      omega
  have hbk : ∀ b, (Ring.place junk hdr (num + 16) k.res s1).1.bk b = if b = s.cur then some { k with res := k.res + (num + 16), rd := k.rd + 1 } else s.bk b :=
    fun b => rfl
  have hne : ∀ {b}, b ≠ s.cur → (Ring.place junk hdr (num + 16) k.res s1).1.bk b = s.bk b := fun e => by rw [hbk, if_neg e]
  have heq : (Ring.place junk hdr (num + 16) k.res s1).1.bk s.cur = some { k with res := k.res + (num + 16), rd := k.rd + 1 } := by rw [hbk, if_pos rfl]
  have hsz : ∀ c l, (Ring.place junk hdr (num + 16) k.res s1).1.bk c = some l → ∃ l', s.bk c = some l' ∧ l'.sz = l.sz := by
    intro c l hl
    by_cases e : c = s.cur
    · subst e
      rw [heq] at hl; cases hl
      exact ⟨k, hk, rfl⟩
    · rw [hne e] at hl; exact ⟨l, hl, rfl⟩
  refine ⟨h.gnodup, ?_, ?_, ?_, ?_, ?_, List.pairwise_cons.2 ⟨hap, h.pair⟩⟩
  · intro b hb
    obtain ⟨l, hl, hlw⟩ := h.gmem b hb
    have : b ≠ s.cur := by
      rintro rfl
      rw [hk] at hl; cases hl
      rw [hw] at hlw; cases hlw
    exact ⟨l, by rw [hne this]; exact hl, hlw⟩
  · intro b l hl
    by_cases e : b = s.cur
    · subst e
      rw [heq] at hl; cases hl
      have := h.pos _ _ hk
      exact ⟨this.1, this.2.1, hn⟩
    · rw [hne e] at hl; exact h.pos _ _ hl
  · intro c c' l l' hl hl' hcc
    obtain ⟨m, hm, e1⟩ := hsz c l hl
    obtain ⟨m', hm', e2⟩ := hsz c' l' hl'
    rw [← e1, ← e2]
    exact h.disj c c' m m' hm hm' hcc
  · intro b l hl
    rw [List.countP_cons]
    by_cases e : b = s.cur
    · subst e
      rw [heq] at hl; cases hl
      have := h.rd _ _ hk
      refine ⟨by simp [this.1], fun hc => ?_⟩
      simp only [hw] at hc
      cases hc
    · rw [hne e] at hl
      have h1 := h.rd _ _ hl
      refine ⟨?_, h1.2⟩
      rw [if_neg (by simpa using Ne.symm e), h1.1]
      rfl
  · intro x hx
    rcases List.mem_cons.1 hx with rfl | hx
    · refine ⟨?_, _, heq, ?_, ?_⟩
      · show store junk _ (s.cur + hdr + k.res + 8) s.cur (s.cur + hdr + k.res + 16 - 8) = s.cur
        rw [show s.cur + hdr + k.res + 16 - 8 = s.cur + hdr + k.res + 8 by omega, store_same]
      · show s.cur + hdr + 16 ≤ s.cur + hdr + k.res + 16
        omega
      · show s.cur + hdr + k.res + 16 + num ≤ s.cur + hdr + (k.res + (num + 16))
        omega
    · obtain ⟨h1, l, h2, h3, h4⟩ := h.blk x hx
      have h5 := hap x hx
      simp only [NApart, Apart] at h5
      refine ⟨?_, ?_⟩
      · show store junk (store junk s.mem (s.cur + hdr + k.res) (num + 16)) (s.cur + hdr + k.res + 8) s.cur (x.p - 8) = x.b
        rw [store_other (by omega), store_other (by omega), h1]
      · by_cases e : x.b = s.cur
        · refine ⟨_, by rw [e]; exact heq, h3, ?_⟩
          rw [e, hk] at h2; cases h2
          show x.p + x.num ≤ x.b + hdr + (k.res + (num + 16))
          omega
        · exact ⟨l, by rw [hne e]; exact h2, h3, h4⟩

/-- One round of `Alloc` with room in the current bucket. -/
theorem round_fit {n base : Nat} {k : Bkt} (hk : s.bk s.cur = some k) (hw : k.wl = false) (hn : k.res + n ≤ k.sz) :
    round n base s = some (setB s s.cur (some { k with res := k.res + n, rd := k.rd + 1 }), some k.res) := by
  unfold round
  rw [hk, Option.bind_some, hw]
  simp only [Bool.false_eq_true, if_false]
  rw [if_neg (by omega)]

/-- One round of `Alloc` without room: the extra check changes nothing. -/
theorem round_over {n base : Nat} {k : Bkt} (hk : s.bk s.cur = some k) (hw : k.wl = false) (hn : k.res + n > k.sz) :
    round n base s = (replace n base s).map fun s => (s, none) := by
  unfold round
  rw [hk, Option.bind_some, hw]
  simp only [Bool.false_eq_true, if_false]
  rw [if_pos hn]
  by_cases h0 : k.res = 0
  · rw [if_pos h0]
    unfold checkRecycle
    rw [hk]
    simp only [Option.map_some, Option.bind_some, if_true]
    split
    · rw [setB_id]
      rw [hk, ← h0]
    · rfl
  · rw [if_neg h0]; rfl

theorem alloc_ok {num base : Nat} (h : GInv hdr s s.gc live) (hc : CurOk s)
    (hf : ∀ k, s.bk s.cur = some k → k.res + (num + 16) > k.sz → ∀ s1, callocIn (num + 16) s = some s1 → Fresh hdr s1 base) :
    ∃ s' p, alloc junk hdr num base s = some (s', p) ∧ GInv hdr s' s'.gc (⟨p, num, s'.cur⟩ :: live) ∧ CurOk s' := by
  obtain ⟨k, hk, hw⟩ := hc
  have fin : ∀ {s : St} {k : Bkt}, GInv hdr s s.gc live → s.bk s.cur = some k → k.wl = false → k.res + (num + 16) ≤ k.sz →
      rounds (num + 16) base s = some (setB s s.cur (some { k with res := k.res + (num + 16), rd := k.rd + 1 }), k.res) := by
    intro s k _ hk hw hn
    unfold rounds
    rw [round_fit hk hw hn]
    rfl
  have cok : ∀ {s : St} {k : Bkt}, k.wl = false →
      CurOk (place junk hdr (num + 16) k.res (setB s s.cur (some { k with res := k.res + (num + 16), rd := k.rd + 1 }))).1 := by
    intro s k hw
    exact ⟨_, setB_same .., hw⟩
  by_cases hn : k.res + (num + 16) ≤ k.sz
  · refine ⟨_, _, ?_, h.place hk hw hn, cok hw⟩
    unfold alloc
    rw [fin h hk hw hn]
    rfl
  · obtain ⟨s', he, h', k', hk', hw', h0, hsz⟩ := replace_ok (n := num + 16) h (hf k hk (by omega))
    have hn' : k'.res + (num + 16) ≤ k'.sz := by omega
    refine ⟨_, _, ?_, h'.place hk' hw' hn', cok hw'⟩
    unfold alloc rounds
    rw [round_over hk hw (by omega), he]
    simp only [Option.map_some, Option.bind_some]
    rw [round_fit hk' hw' hn']
    rfl

/-- A block without readers is recycled. -/
theorem recycle_ok (h : GInv hdr s s.gc live) (hc : CurOk s) {b : Nat} {k : Bkt} (hb : s.bk b = some k) (hw : k.wl = false) :
    ∃ s', checkRecycle b s = some s' ∧ GInv hdr s' s'.gc live ∧ CurOk s' ∧ (k.rd = 0 → b ≠ s.cur → b ∈ s'.gc) ∧
      (k.rd = 0 → b = s.cur → ∃ k', s'.bk b = some k' ∧ k'.res = 0) := by
  unfold checkRecycle
  rw [hb, Option.map_some]
  refine ⟨_, rfl, ?_⟩
  by_cases h0 : k.rd = 0
  · rw [if_pos ⟨h0, hw⟩]
    by_cases e : b = s.cur
    · rw [if_pos e]
      refine ⟨?_, ?_, fun _ hne => absurd e hne, fun _ _ => ⟨{ k with res := 0 }, setB_same .., rfl⟩⟩
      · refine h.setEmpty hb h0 rfl (by simp) h0 fun hm => ?_
        obtain ⟨l, hl, hlw⟩ := h.gmem b hm
        rw [hb] at hl; cases hl
        exact hlw
      · refine ⟨{ k with res := 0 }, ?_, hw⟩
        rw [e]; exact setB_same ..
    · rw [if_neg e]
      have h1 := h.setEmpty (k' := { k with wl := true }) hb h0 rfl (h.pos _ _ hb).2.2 h0 (fun _ => rfl)
      refine ⟨?_, ?_, fun _ _ => by simp, fun _ he => absurd he e⟩
      · refine ⟨List.nodup_cons.2 ⟨fun hm => ?_, h.gnodup⟩, ?_, h1.pos, h1.disj, h1.rd, h1.blk, h1.pair⟩
        · obtain ⟨l, hl, hlw⟩ := h.gmem b hm
          rw [hb] at hl; cases hl
          rw [hw] at hlw; cases hlw
        · intro c hc
          rcases List.mem_cons.1 hc with rfl | hc
          · exact ⟨{ k with wl := true }, setB_same .., rfl⟩
          · exact h1.gmem c hc
      · obtain ⟨l, hl, hlw⟩ := hc
        refine ⟨l, ?_, hlw⟩
        show (setB s b (some { k with wl := true })).bk s.cur = some l
        rw [setB_ne _ _ (Ne.symm e)]; exact hl
  · rw [if_neg (fun hh => h0 hh.1)]
    exact ⟨h, hc, fun e => absurd e h0, fun e => absurd e h0⟩

theorem dealloc_ok (h : GInv hdr s s.gc live) (hc : CurOk s) {x : Blk} (hx : x ∈ live) :
    ∃ s', dealloc x.p s = some s' ∧ GInv hdr s' s'.gc (live.erase x) ∧ CurOk s' ∧
      ((∀ y ∈ live.erase x, y.b ≠ x.b) → (x.b ≠ s.cur → x.b ∈ s'.gc) ∧ (x.b = s.cur → ∃ k, s'.bk x.b = some k ∧ k.res = 0)) := by
  obtain ⟨hm, k, hk, h3, h4⟩ := h.blk x hx
  unfold dealloc
  rw [hm, hk, Option.bind_some]
  have hcount := h.rd _ _ hk
  have hpos : 0 < live.countP (fun y => decide (y.b = x.b)) := List.countP_pos_iff.2 ⟨x, hx, by simp⟩
  have hw : k.wl = false := by
    cases e : k.wl with
    | false => rfl
    | true => have := hcount.2 e; omega
  rw [if_neg (by omega)]
  have hce : ∀ b, (live.erase x).countP (fun y => decide (y.b = b)) = live.countP (fun y => decide (y.b = b)) - if x.b = b then 1 else 0 := by
    intro b
    rw [(List.perm_cons_erase hx).countP_eq, List.countP_cons]
    by_cases e : x.b = b <;> simp [e]
  have hbk : ∀ b, (setB s x.b (some { k with rd := k.rd - 1 })).bk b = if b = x.b then some { k with rd := k.rd - 1 } else s.bk b := fun b => rfl
  have h' : GInv hdr (setB s x.b (some { k with rd := k.rd - 1 })) s.gc (live.erase x) := by
    have hsz : ∀ c l, (setB s x.b (some { k with rd := k.rd - 1 })).bk c = some l → ∃ l', s.bk c = some l' ∧ l'.sz = l.sz ∧ l'.res = l.res := by
      intro c l hl
      rw [hbk] at hl
      split at hl
      · next e => cases hl; subst e; exact ⟨k, hk, rfl, rfl⟩
      · exact ⟨l, hl, rfl, rfl⟩
    refine ⟨h.gnodup, ?_, ?_, ?_, ?_, ?_, h.pair.sublist List.erase_sublist⟩
    · intro b hb
      obtain ⟨l, hl, hlw⟩ := h.gmem b hb
      refine ⟨l, ?_, hlw⟩
      rw [hbk, if_neg, hl]
      rintro rfl
      rw [hk] at hl; cases hl
      rw [hw] at hlw; cases hlw
    · intro b l hl
      obtain ⟨l', h5, h6, h7⟩ := hsz b l hl
      have := h.pos b l' h5
      omega
    · intro c c' l l' hl hl' hcc
      obtain ⟨m, hm, e1, -⟩ := hsz c l hl
      obtain ⟨m', hm', e2, -⟩ := hsz c' l' hl'
      rw [← e1, ← e2]
      exact h.disj c c' m m' hm hm' hcc
    · intro b l hl
      rw [hce]
      rw [hbk] at hl
      split at hl
      · next e =>
        cases hl; subst e
        rw [if_pos rfl]
        refine ⟨by simp only; omega, fun hc => ?_⟩
        simp only [hw] at hc; cases hc
      · next e =>
        rw [if_neg (Ne.symm e)]
        exact h.rd b l hl
    · intro y hy
      have hy := List.mem_of_mem_erase hy
      obtain ⟨h5, l, h6, h7, h8⟩ := h.blk y hy
      refine ⟨h5, ?_⟩
      rw [hbk]
      split
      · next e =>
        refine ⟨_, rfl, h7, ?_⟩
        rw [e, hk] at h6; cases h6
        exact h8
      · exact ⟨l, h6, h7, h8⟩
  have hc' : CurOk (setB s x.b (some { k with rd := k.rd - 1 })) := by
    obtain ⟨l, hl, hlw⟩ := hc
    show ∃ l, (setB s x.b (some { k with rd := k.rd - 1 })).bk s.cur = some l ∧ _
    rw [hbk]
    split
    · exact ⟨_, rfl, hw⟩
    · exact ⟨l, hl, hlw⟩
  obtain ⟨s', e1, e2, e3, e4, e5⟩ := recycle_ok (s := setB s x.b (some { k with rd := k.rd - 1 })) h' hc' (b := x.b) (setB_same ..) hw
  refine ⟨s', e1, e2, e3, fun hall => ?_⟩
  have h0 : k.rd - 1 = 0 := by
    have h9 : (live.erase x).countP (fun y => decide (y.b = x.b)) = 0 := by
      rw [List.countP_eq_zero]
      intro y hy
      simp [hall y hy]
    rw [hce, if_pos rfl] at h9
    omega
  exact ⟨e4 h0, e5 h0⟩

theorem clear0_inv (s : St) (hg : s.gc = []) (hb : ∀ b, s.bk b = none) : GInv hdr s s.gc [] := by
  refine ⟨by simp [hg], by simp [hg], ?_, ?_, ?_, by simp, by simp⟩
  · intro b k hk; rw [hb] at hk; cases hk
  · intro b b' k k' hk; rw [hb] at hk; cases hk
  · intro b k hk; rw [hb] at hk; cases hk

theorem first_ok {n base : Nat} (hp : 0 < base) (hg : s.gc = []) (hb : ∀ b, s.bk b = none) :
    ∃ s', replace n base s = some s' ∧ GInv hdr s' s'.gc [] ∧ CurOk s' := by
  obtain ⟨s', h1, h2, k, h3, h4, -⟩ := replace_ok (n := n) (base := base) (clear0_inv (hdr := hdr) s hg hb) (by
    intro s1 h1
    unfold callocIn at h1
    rw [hg] at h1
    simp only [popGc, Option.bind_some, if_true] at h1
    cases h1
    refine ⟨hp, fun b k hk => ?_⟩
    have hk : s.bk b = some k := hk
    rw [hb] at hk; cases hk)
  exact ⟨s', h1, h2, k, h3, h4⟩

theorem reach_inv (h : Reach junk hdr s live) : GInv hdr s s.gc live ∧ CurOk s := by
  induction h with
  | @new sz base mem s hp he =>
    obtain ⟨s', h1, h2⟩ := first_ok (hdr := hdr) (s := ⟨fun _ => none, 0, [], sz, mem⟩) (n := sz) hp rfl (fun _ => rfl)
    unfold new at he
    rw [h1] at he; cases he
    exact h2
  | alloc _ hf he ih =>
    obtain ⟨s', p, h1, h2⟩ := alloc_ok (junk := junk) ih.1 ih.2 (fun _ _ _ => hf)
    rw [h1] at he; cases he
    exact h2
  | dealloc _ hx he ih =>
    obtain ⟨s', h1, h2, h3, -⟩ := dealloc_ok ih.1 ih.2 hx
    rw [h1] at he; cases he
    exact ⟨h2, h3⟩
  | @clear s live base s' _ hp he ih =>
    obtain ⟨s', h1, h2⟩ := first_ok (hdr := hdr) (s := clear0 s) (n := s.last) hp rfl (fun _ => rfl)
    unfold clear at he
    rw [h1] at he; cases he
    exact h2
  | @write s live mem' _ hm ih =>
    refine ⟨⟨ih.1.gnodup, ih.1.gmem, ih.1.pos, ih.1.disj, ih.1.rd, ?_, ih.1.pair⟩, ih.2⟩
    intro x hx
    obtain ⟨h1, k, h2, h3, h4⟩ := ih.1.blk x hx
    refine ⟨?_, k, h2, h3, h4⟩
    show mem' (x.p - 8) = x.b
    rw [hm, h1]
    intro y hy
    obtain ⟨-, -, -, h6, -⟩ := ih.1.blk y hy
    have hp := ih.1.pair
    rw [List.pairwise_iff_getElem] at hp
    obtain ⟨i, hi, rfl⟩ := List.getElem_of_mem hx
    obtain ⟨j, hj, rfl⟩ := List.getElem_of_mem hy
    rcases Nat.lt_trichotomy i j with e | e | e
    · have := hp i j hi hj e
      simp only [NApart, Apart] at this; omega
    · subst e; omega
    · have := hp j i hj hi e
      simp only [NApart, Apart] at this; omega

/-- C37: the blocks in use never overlap, and no two have the same address. -/
theorem C37_disjoint (h : Reach junk hdr s live) : live.Pairwise fun x y => Apart x.p x.num y.p y.num ∧ x.p ≠ y.p := by
  obtain ⟨h, -⟩ := reach_inv h
  have hp := h.pair
  rw [List.pairwise_iff_getElem] at hp ⊢
  intro i j hi hj hij
  have h1 := hp i j hi hj hij
  obtain ⟨-, -, -, h2, -⟩ := h.blk _ (List.getElem_mem hi)
  obtain ⟨-, -, -, h3, -⟩ := h.blk _ (List.getElem_mem hj)
  simp only [NApart, Apart] at *
  omega

/-- C37: a block in use lies, with all the bytes requested, in its bucket, behind the headers; the bucket has not been freed and is not in
the list of buckets to be used again. -/
theorem C37_room (h : Reach junk hdr s live) {x : Blk} (hx : x ∈ live) :
    x.b ∉ s.gc ∧ ∃ k, s.bk x.b = some k ∧ x.b + hdr + 16 ≤ x.p ∧ x.p + x.num ≤ x.b + hdr + k.sz := by
  obtain ⟨h, -⟩ := reach_inv h
  obtain ⟨-, k, h2, h3, h4⟩ := h.blk x hx
  have h5 := (h.pos _ _ h2).2.2
  refine ⟨fun hm => ?_, k, h2, h3, by omega⟩
  obtain ⟨l, hl, hlw⟩ := h.gmem _ hm
  exact h.empty hl ((h.rd _ _ hl).2 hlw) x hx rfl

/-- C37: a bucket is put on the list, is freed, or starts again from its beginning in a call of `Alloc` or `Dealloc` only if no block of it
is in use. -/
theorem C37_recycled {num base p : Nat} {s' : St} (h : Reach junk hdr s live) (hs : ∀ s1, callocIn (num + 16) s = some s1 → Fresh hdr s1 base)
    (he : alloc junk hdr num base s = some (s', p)) {x : Blk} (hx : x ∈ live) :
    x.b ∉ s'.gc ∧ ∃ k k', s.bk x.b = some k ∧ s'.bk x.b = some k' ∧ x.p + x.num ≤ x.b + hdr + k.res ∧ x.p + x.num ≤ x.b + hdr + k'.res := by
  have h' := Reach.alloc h hs he
  have hr := C37_room h' (x := x) (by simp [hx])
  obtain ⟨-, k, h2, -, h4⟩ := (reach_inv h).1.blk x hx
  obtain ⟨-, k', h6, -, h8⟩ := (reach_inv h').1.blk x (by simp [hx])
  exact ⟨hr.1, k, k', h2, h6, h4, h8⟩

/-- C37: when the last block of a bucket is freed, the bucket is put on the list to be used again, or, if it is the current one, starts again
from its beginning. -/
theorem C37_last (h : Reach junk hdr s live) {x : Blk} (hx : x ∈ live) (hl : ∀ y ∈ live.erase x, y.b ≠ x.b) :
    ∃ s', dealloc x.p s = some s' ∧ (x.b ≠ s.cur → x.b ∈ s'.gc) ∧ (x.b = s.cur → ∃ k, s'.bk x.b = some k ∧ k.res = 0) := by
  obtain ⟨h, hc⟩ := reach_inv h
  obtain ⟨s', h1, -, -, h4⟩ := dealloc_ok h hc hx
  exact ⟨s', h1, h4 hl⟩

/-- C37: every call returns, without undefined behaviour; in particular the loop of `Alloc` ends after at most two rounds. -/
theorem C37_no_ub (h : Reach junk hdr s live) (num base : Nat) :
    ((∀ s1, callocIn (num + 16) s = some s1 → Fresh hdr s1 base) → ∃ r, alloc junk hdr num base s = some r) ∧
    (∀ x ∈ live, ∃ s', dealloc x.p s = some s') ∧ (0 < base → ∃ s', clear base s = some s') := by
  obtain ⟨h, hc⟩ := reach_inv h
  refine ⟨fun hf => ?_, fun x hx => ?_, fun hp => ?_⟩
  · obtain ⟨s', p, h1, -⟩ := alloc_ok (junk := junk) h hc (fun _ _ _ => hf)
    exact ⟨_, h1⟩
  · obtain ⟨s', h1, -⟩ := dealloc_ok h hc hx
    exact ⟨s', h1⟩
  · obtain ⟨s', h1, -⟩ := first_ok (hdr := hdr) (s := clear0 s) (n := s.last) hp rfl (fun _ => rfl)
    exact ⟨s', h1⟩

/-- C37 counterexample about reuse: the comment at `RingAlloc.h:69` says that an empty bucket which is too small is kept from being lost, but
`_checkRecycle` still sees it as the current one, so after the call it has no blocks, is not current and is not on the list; nothing
finds it again before `Clear`. -/
theorem C37_orphan_counterexample :
    ((new 16 1000 fun _ => 0).bind fun s => (alloc (fun _ _ => 0) 48 100 5000 s).map fun r => (s.cur, r.1.cur, r.1.gc, r.1.bk 1000)) =
      some (1000, 5000, [], some ⟨27, 0, 0, false⟩) := by decide +kernel

/-- The hypotheses are met: two blocks in a second bucket after the first one was too small. -/
example : ∃ s, Reach (fun _ _ => 0) 48 s [⟨5180, 10, 5000⟩, ⟨5064, 100, 5000⟩] := by
  obtain ⟨s0, e0⟩ : ∃ s0, new 16 1000 (fun _ => 0) = some s0 := ⟨_, rfl⟩
  have h0 : Reach (fun _ _ => 0) 48 s0 [] := .new (by decide) e0
  have he : ((new 16 1000 fun _ => 0).bind fun s => (alloc (fun _ _ => 0) 48 100 5000 s).bind fun r =>
      (alloc (fun _ _ => 0) 48 10 9000 r.1).map fun t => (r.2, r.1.cur, t.2, t.1.cur)) = some (5064, 5000, 5180, 5000) := by decide +kernel
  rw [e0] at he
  simp only [Option.bind_some, Option.bind_eq_some_iff, Option.map_eq_some_iff] at he
  obtain ⟨⟨s1, p1⟩, e1, ⟨s2, p2⟩, e2, e3⟩ := he
  cases e0
  simp only [Prod.mk.injEq] at e3
  obtain ⟨rfl, c1, rfl, c2⟩ := e3
  have h1 := h0.alloc (fun s1 hs => by
    cases hs
    refine ⟨by decide, fun b k hk => ?_⟩
    by_cases e : b = 1000
    · subst e
      cases hk
      exact .inr (by decide)
    · simp [setB, e] at hk) e1
  have h2 := h1.alloc (fun s2 hs => by
    cases e1
    cases hs
    refine ⟨by decide, fun b k hk => ?_⟩
    by_cases e' : b = 5000
    · subst e'
      cases hk
      exact .inr (by decide)
    · by_cases e : b = 1000
      · subst e
        cases hk
        exact .inr (by decide)
      · simp [setB, place, e, e'] at hk) e2
  rw [c1, c2] at h2
  exact ⟨_, h2⟩

end Verif.Alloc.Ring
