import Verif.Alloc.LocklessBlock

/-! # C41: theorems about `LocklessBlockPolicy` -/

namespace Verif.Alloc.Lockless

/-! ## Sums over threads -/

/-- Sum over a list. -/
def tot (f : PC → Nat) : List PC → Nat
  | [] => 0
  | x :: l => f x + tot f l

theorem tot_set {f : PC → Nat} : ∀ {l : List PC} {i : Nat} {x y : PC}, l[i]? = some x → tot f (l.set i y) + f x = tot f l + f y
  | [], _, _, _, h => by simp at h
  | z :: l, 0, x, y, h => by
    simp at h; subst h
    simp [tot]; omega
  | z :: l, i + 1, x, y, h => by
    simp at h
    have := tot_set (f := f) (y := y) h
    simp [tot]; omega

theorem tot_ge {f : PC → Nat} : ∀ {l : List PC} {i : Nat} {x : PC}, l[i]? = some x → f x ≤ tot f l
  | [], _, _, h => by simp at h
  | z :: l, 0, x, h => by simp at h; subst h; simp [tot]
  | z :: l, i + 1, x, h => by
    simp at h
    have := tot_ge (f := f) h
    simp [tot]; omega

theorem tot_two {f : PC → Nat} : ∀ {l : List PC} {i j : Nat} {x y : PC}, l[i]? = some x → l[j]? = some y → i ≠ j → f x + f y ≤ tot f l
  | [], _, _, _, _, h, _, _ => by simp at h
  | z :: l, 0, 0, _, _, _, _, hne => absurd rfl hne
  | z :: l, 0, j + 1, x, y, h, h', _ => by
    simp at h h'; subst h
    have := tot_ge (f := f) h'
    simp [tot]; omega
  | z :: l, i + 1, 0, x, y, h, h', _ => by
    simp at h h'; subst h'
    have := tot_ge (f := f) h
    simp [tot]; omega
  | z :: l, i + 1, j + 1, x, y, h, h', hne => by
    simp at h h'
    have := tot_two (f := f) h h' (by omega)
    simp [tot]; omega

theorem tot_replicate {f : PC → Nat} (h : f .idle = 0) (n : Nat) : tot f (List.replicate n .idle) = 0 := by
  induction n with
  | zero => rfl
  | succ n ih => simp [List.replicate_succ, tot, h, ih]

theorem tot_zero {f : PC → Nat} : ∀ {l : List PC}, (∀ x ∈ l, f x = 0) → tot f l = 0
  | [], _ => rfl
  | z :: l, h => by
    have := tot_zero (l := l) fun x hx => h x (by simp [hx])
    simp [tot, h z (by simp), this]

/-! ## Lists in memory -/

/-- The blocks `S` are linked from `f` to `t`. -/
def Seg (m : Nat → Nat) (t : Nat) : Nat → List Nat → Prop
  | _, [] => False
  | f, [x] => f = x ∧ x = t ∧ x ≠ 0
  | f, x :: y :: l => f = x ∧ x ≠ 0 ∧ x ≠ t ∧ Seg m t (m x) (y :: l)

theorem chain_congr {m m' : Nat → Nat} : ∀ {l : List Nat} {f : Nat}, Chain m f l → (∀ p ∈ l, m' p = m p) → Chain m' f l
  | [], _, h, _ => h
  | p :: l, f, h, hl => by
    obtain ⟨h1, h2, h3⟩ := h
    refine ⟨h1, h2, ?_⟩
    rw [hl p (by simp)]
    exact chain_congr h3 fun q hq => hl q (by simp [hq])

theorem seg_congr {m m' : Nat → Nat} {t : Nat} : ∀ {l : List Nat} {f : Nat}, Seg m t f l → (∀ p ∈ l, p ≠ t → m' p = m p) → Seg m' t f l
  | [], _, h, _ => h
  | [x], _, h, _ => h
  | x :: y :: l, f, h, hl => by
    obtain ⟨h1, h2, h3, h4⟩ := h
    refine ⟨h1, h2, h3, ?_⟩
    rw [hl x (by simp) h3]
    exact seg_congr h4 fun q hq => hl q (by simp only [List.mem_cons] at hq ⊢; exact .inr hq)

theorem seg_append {m : Nat → Nat} {t : Nat} : ∀ {S : List Nat} {f : Nat} {L : List Nat}, Seg m t f S → Chain m (m t) L → Chain m f (S ++ L)
  | [], _, _, h, _ => absurd h (by simp [Seg])
  | [x], f, L, h, hL => by
    obtain ⟨h1, h2, h3⟩ := h
    subst h2
    exact ⟨h1, h3, hL⟩
  | x :: y :: l, f, L, h, hL => by
    obtain ⟨h1, h2, h3, h4⟩ := h
    exact ⟨h1, h2, seg_append h4 hL⟩

theorem seg_mem {m : Nat → Nat} {t : Nat} : ∀ {S : List Nat} {f : Nat}, Seg m t f S → t ∈ S
  | [], _, h => absurd h (by simp [Seg])
  | [x], f, h => by simp [h.2.1]
  | x :: y :: l, f, h => by
    have := seg_mem h.2.2.2
    simp only [List.mem_cons] at this ⊢
    exact .inr this

theorem initLoop_frame : ∀ {l : List Nat} {h : Nat} {m : Nat → Nat} {x : Nat}, x ∉ l → (initLoop l h m).1 x = m x
  | [], _, _, _, _ => rfl
  | a :: l, h, m, x, hx => by
    simp only [List.mem_cons, not_or] at hx
    unfold initLoop
    rw [initLoop_frame hx.2]
    simp [upd, hx.1]

theorem initLoop_seg {t : Nat} : ∀ {l : List Nat} {S : List Nat} {h : Nat} {m : Nat → Nat}, Seg m t h S → (S ++ l).Nodup → (∀ x ∈ l, x ≠ 0) → (∀ x ∈ l, x ≠ t) →
    Seg (initLoop l h m).1 t (initLoop l h m).2 (l.reverse ++ S)
  | [], _, _, _, h, _, _, _ => by simpa [initLoop] using h
  | a :: l, S, h, m, hS, hn, h0, ht => by
    unfold initLoop
    have hn' := hn
    rw [List.nodup_append] at hn
    have haS : a ∉ S := fun hm => hn.2.2 a hm a (by simp) rfl
    have : Seg (upd m a h) t a (a :: S) := by
      have h2 : Seg (upd m a h) t h S := seg_congr hS fun p hp _ => by
        have : p ≠ a := fun e => haS (e ▸ hp)
        simp [upd, this]
      cases S with
      | nil => exact absurd hS (by simp [Seg])
      | cons y S =>
        refine ⟨rfl, h0 a (by simp), ht a (by simp), ?_⟩
        simpa [upd] using h2
    have h3 := initLoop_seg (l := l) this (by
      refine (List.Perm.nodup_iff ?_).1 hn'
      simp [List.perm_middle]) (fun x hx => h0 x (by simp [hx])) (fun x hx => ht x (by simp [hx]))
    simpa using h3

/-! ## The blocks of a chunk -/

theorem mem_blocks {sz base n x : Nat} : x ∈ blocks sz base n ↔ ∃ i < n, x = base + 16 + i * sz := by
  simp [blocks, eq_comm]

theorem blocks_range {sz base n x : Nat} (h : x ∈ blocks sz base n) : base + 16 ≤ x ∧ x + sz ≤ base + 16 + n * sz := by
  obtain ⟨i, hi, rfl⟩ := mem_blocks.1 h
  have : (i + 1) * sz ≤ n * sz := Nat.mul_le_mul_right sz hi
  rw [Nat.add_mul] at this
  omega

theorem blocks_apart (sz base n : Nat) : (blocks sz base n).Pairwise fun a b => a + sz ≤ b ∨ b + sz ≤ a := by
  unfold blocks
  rw [List.pairwise_map]
  refine (List.pairwise_lt_range (n := n)).imp ?_
  intro i j h
  have : (i + 1) * sz ≤ j * sz := Nat.mul_le_mul_right sz h
  rw [Nat.add_mul] at this
  omega

theorem blocks_cons {sz base n : Nat} (h : 0 < n) : ∃ l, blocks sz base n = (base + 16) :: l := by
  obtain ⟨m, rfl⟩ : ∃ m, n = m + 1 := ⟨n - 1, by omega⟩
  exact ⟨_, by unfold blocks; rw [List.range_succ_eq_map]; simp; rfl⟩

theorem apart_nodup {sz : Nat} (h : 0 < sz) {l : List Nat} (hl : l.Pairwise fun a b => a + sz ≤ b ∨ b + sz ≤ a) : l.Nodup :=
  hl.imp fun {a b} hab => by omega

/-- A new chunk is linked from its last block to its first. -/
theorem init_seg {sz base n : Nat} (hsz : 0 < sz) (hn : 0 < n) (m : Nat → Nat) :
    Seg (initLoop (blocks sz base n) 0 m).1 (base + 16) (initLoop (blocks sz base n) 0 m).2 (blocks sz base n).reverse := by
  obtain ⟨l, hl⟩ := blocks_cons (sz := sz) (base := base) hn
  have hnd := apart_nodup hsz (blocks_apart sz base n)
  have hr : ∀ x ∈ l, base + 16 ≤ x := fun x hx => (blocks_range (sz := sz) (n := n) (by simp [hl, hx])).1
  rw [hl] at hnd ⊢
  unfold initLoop
  have := initLoop_seg (t := base + 16) (l := l) (S := [base + 16]) (h := base + 16) (m := upd m (base + 16) 0) ⟨rfl, rfl, by omega⟩ (by simpa using hnd)
    (fun x hx => by have := hr x hx; omega) (fun x hx e => (List.nodup_cons.1 hnd).1 (e ▸ hx))
  simpa using this

/-! ## Invariant -/

/-- The blocks a thread is about to put on the free list. -/
def transit : PC → List Nat
  | .pLoad u | .pWrite u _ _ | .pCas u _ _ => u.S
  | _ => []

/-- How often a block is among them. -/
def tc (x : Nat) (pc : PC) : Nat := (transit pc).count x

/-- A pair read from the free list: if the tag has not changed then the pointer has not. -/
def Snap (s : Sh) (p t : Nat) : Prop := t ≤ s.fl.2 ∧ (t = s.fl.2 → p = s.fl.1) ∧ (p ≠ 0 → p ∈ s.B)

/-- What a thread knows. -/
def pcOk (s : Sh) : PC → Prop
  | .aHave p t => Snap s p t
  | .aCas p t n => Snap s p t ∧ p ≠ 0 ∧ (t = s.fl.2 → n = s.mem p)
  | .pLoad u => Seg s.mem u.tgt u.top u.S
  | .pWrite u pp pt => Seg s.mem u.tgt u.top u.S ∧ Snap s pp pt
  | .pCas u pp pt => Seg s.mem u.tgt u.top u.S ∧ Snap s pp pt ∧ s.mem u.tgt = pp
  | _ => True

/-- 1 for a thread that has the flag. -/
def fl1 (pc : PC) : Nat := if flagged pc then 1 else 0

structure Inv (sz : Nat) (s : Sh) (ags : List PC) (L : List Nat) : Prop where
  chain : Chain s.mem s.fl.1 L
  count : ∀ x, L.count x + s.held.count x + tot (tc x) ags = s.B.count x
  apart : s.B.Pairwise fun a b => a + sz ≤ b ∨ b + sz ≤ a
  pcs : ∀ (i : Nat) (pc : PC), ags[i]? = some pc → pcOk s pc
  flag : tot fl1 ags = if s.flag then 1 else 0
  cnt : 0 < s.cnt
  pos : ∀ x ∈ s.B, x ≠ 0

theorem chain_head {m : Nat → Nat} {f : Nat} {L : List Nat} (h : Chain m f L) (h0 : f ≠ 0) : ∃ L', L = f :: L' ∧ Chain m (m f) L' := by
  cases L with
  | nil => exact absurd h h0
  | cons p l =>
    obtain ⟨rfl, -, h2⟩ := h
    exact ⟨l, rfl, h2⟩

theorem count_le_one {sz : Nat} (hsz : 0 < sz) {s : Sh} (h : s.B.Pairwise fun a b => a + sz ≤ b ∨ b + sz ≤ a) (x : Nat) : s.B.count x ≤ 1 :=
  List.nodup_iff_count.1 (apart_nodup hsz h) x

/-- What other threads know stays true. -/
theorem pcOk_mono {s s' : Sh} {pc : PC} (h : pcOk s pc) (hfl : s'.fl = s.fl ∨ s.fl.2 < s'.fl.2)
    (hm : s'.fl = s.fl → s.fl.1 ≠ 0 → s'.mem s.fl.1 = s.mem s.fl.1) (hS : ∀ x ∈ transit pc, s'.mem x = s.mem x)
    (hB : ∀ x ∈ s.B, x ∈ s'.B) : pcOk s' pc := by
  have hsnap : ∀ {p t}, Snap s p t → Snap s' p t := by
    intro p t ⟨h1, h2, h3⟩
    rcases hfl with e | e
    · exact ⟨by rw [e]; exact h1, by rw [e]; exact h2, fun h0 => hB _ (h3 h0)⟩
    · exact ⟨by omega, fun e' => by omega, fun h0 => hB _ (h3 h0)⟩
  have hseg : ∀ {u : Push}, transit pc = u.S → Seg s.mem u.tgt u.top u.S → Seg s'.mem u.tgt u.top u.S := by
    intro u hu h
    exact seg_congr h fun x hx _ => hS x (hu ▸ hx)
  cases pc with
  | aHave p t => exact hsnap h
  | aCas p t n =>
    obtain ⟨h1, h2, h3⟩ := h
    refine ⟨hsnap h1, h2, fun e => ?_⟩
    rcases hfl with e' | e'
    · rw [e'] at e
      have hp := h1.2.1 e
      rw [h3 e, hp, hm e' (hp ▸ h2)]
    · have := h1.1; omega
  | pLoad u => exact hseg rfl h
  | pWrite u pp pt => exact ⟨hseg rfl h.1, hsnap h.2⟩
  | pCas u pp pt =>
    refine ⟨hseg rfl h.1, hsnap h.2.1, ?_⟩
    rw [hS _ (seg_mem h.1)]
    exact h.2.2
  | _ => trivial

theorem set_get {l : List PC} {i j : Nat} {x y z : PC} (hi : l[i]? = some x) (h : (l.set i y)[j]? = some z) : (i = j ∧ z = y) ∨ (i ≠ j ∧ l[j]? = some z) := by
  rw [List.getElem?_set] at h
  split at h
  · next e =>
    split at h
    · exact .inl ⟨e, (Option.some.inj h).symm⟩
    · cases h
  · next e => exact .inr ⟨e, h⟩

variable {sz : Nat} {s s' : Sh} {ags : List PC} {L : List Nat} {i : Nat} {pc pc' : PC}

/-- A step that changes neither memory nor lists. -/
theorem Inv.quiet (h : Inv sz s ags L) (hi : ags[i]? = some pc) (hfl : s'.fl = s.fl) (hm : s'.mem = s.mem) (hh : s'.held = s.held) (hB : s'.B = s.B)
    (hc : s'.cnt = s.cnt) (ht : transit pc' = transit pc) (hok : pcOk s' pc')
    (hf : (if s'.flag then 1 else 0) + fl1 pc = (if s.flag then 1 else 0) + fl1 pc') : Inv sz s' (ags.set i pc') L := by
  refine ⟨by rw [hfl, hm]; exact h.chain, fun x => ?_, by rw [hB]; exact h.apart, fun j p hj => ?_, ?_, by rw [hc]; exact h.cnt, by rw [hB]; exact h.pos⟩
  · have h1 := h.count x
    have h2 := tot_set (f := tc x) (y := pc') hi
    simp only [tc, ht] at h2
    rw [hh, hB]
    omega
  · rcases set_get hi hj with ⟨-, rfl⟩ | ⟨-, hj⟩
    · exact hok
    · exact pcOk_mono (h.pcs j p hj) (.inl hfl) (fun _ _ => by rw [hm]) (fun _ _ => by rw [hm]) (fun _ hx => by rw [hB]; exact hx)
  · have h1 := h.flag
    have h2 := tot_set (f := fl1) (y := pc') hi
    omega

/-- The free list pointer as read now. -/
theorem Inv.snap (h : Inv sz s ags L) : Snap s s.fl.1 s.fl.2 := by
  refine ⟨Nat.le_refl _, fun _ => rfl, fun h0 => ?_⟩
  obtain ⟨L', hL, -⟩ := chain_head h.chain h0
  have h1 := h.count s.fl.1
  have h2 : 0 < L.count s.fl.1 := List.count_pos_iff.2 (by simp [hL])
  exact List.count_pos_iff.1 (by omega)

theorem Inv.step (hsz : 0 < sz) (h : Inv sz s ags L) (hi : ags[i]? = some pc) {a : Act}
    (hs : ∀ base, a = .go base → pc = .aCarve → SysOk sz base (Arith.fbnextN s.cnt) s.B)
    (he : step1 sz a pc s = some (pc', s')) : ∃ L', Inv sz s' (ags.set i pc') L' := by
  have hpc := h.pcs i pc hi
  have hsnap := h.snap
  have c1 := count_le_one hsz h.apart
  cases a with
  | alloc =>
    cases pc <;> simp only [step1] at he <;> try contradiction
    cases he
    exact ⟨L, h.quiet hi rfl rfl rfl rfl rfl rfl hsnap rfl⟩
  | free p =>
    cases pc <;> simp only [step1] at he <;> try contradiction
    split at he
    · next hp =>
      cases he
      have hcp : 0 < s.held.count p := List.count_pos_iff.2 hp
      have hpB : p ∈ s.B := List.count_pos_iff.1 (by have := h.count p; omega)
      refine ⟨L, h.chain, fun x => ?_, h.apart, fun j q hj => ?_, ?_, h.cnt, h.pos⟩
      · have h1 := h.count x
        have h2 := tot_set (f := tc x) (y := .pLoad ⟨p, p, [p], false⟩) hi
        simp only [tc, transit, List.count_nil] at h2
        have h3 : (s.held.erase p).count x + [p].count x = s.held.count x := by
          rw [List.count_erase]
          by_cases e : p = x
          · subst e; simp; omega
          · simp [e, List.count_cons]
        show L.count x + (s.held.erase p).count x + _ = s.B.count x
        omega
      · rcases set_get hi hj with ⟨-, rfl⟩ | ⟨-, hj⟩
        · exact ⟨rfl, rfl, h.pos p hpB⟩
        · exact pcOk_mono (h.pcs j q hj) (.inl rfl) (fun _ _ => rfl) (fun _ _ => rfl) (fun _ hx => hx)
      · have h1 := h.flag
        have h2 := tot_set (f := fl1) (y := .pLoad ⟨p, p, [p], false⟩) hi
        simp only [fl1, flagged] at h2
        show _ = if s.flag then 1 else 0
        simp at h2
        omega
    · exact absurd he (by simp)
  | go base =>
    cases pc with
    | idle => simp [step1] at he
    | aHave p t =>
      simp only [step1] at he
      split at he
      · split at he
        · cases he
          exact ⟨L, h.quiet hi rfl rfl rfl rfl rfl rfl trivial rfl⟩
        · next hf =>
          cases he
          refine ⟨L, h.quiet hi rfl rfl rfl rfl rfl rfl trivial ?_⟩
          simp [fl1, flagged, hf]
      · next hp =>
        cases he
        refine ⟨L, h.quiet hi rfl rfl rfl rfl rfl rfl ⟨hpc, hp, fun _ => rfl⟩ rfl⟩
    | aCas p t n =>
      simp only [step1] at he
      obtain ⟨h1, h2, h3⟩ := hpc
      split at he
      · next hfl =>
        cases he
        have e1 : s.fl.1 = p := by rw [hfl]
        have e2 : s.fl.2 = t := by rw [hfl]
        obtain ⟨L', hL, hc⟩ := chain_head h.chain (e1 ▸ h2)
        rw [e1] at hL hc
        rw [← h3 e2.symm] at hc
        refine ⟨L', hc, fun x => ?_, h.apart, fun j q hj => ?_, ?_, h.cnt, h.pos⟩
        · have h4 := h.count x
          have h5 := tot_set (f := tc x) (y := .idle) hi
          simp only [tc, transit, List.count_nil] at h5
          rw [hL, List.count_cons] at h4
          show L'.count x + (p :: s.held).count x + _ = s.B.count x
          rw [List.count_cons]
          omega
        · rcases set_get hi hj with ⟨-, rfl⟩ | ⟨-, hj⟩
          · trivial
          · refine pcOk_mono (h.pcs j q hj) (.inr (by simp only; omega)) (fun e => ?_) (fun _ _ => rfl) (fun _ hx => hx)
            have : (n, t + 1).2 = s.fl.2 := by rw [← e]
            simp only at this; omega
        · have h4 := h.flag
          have h5 := tot_set (f := fl1) (y := .idle) hi
          simp only [fl1, flagged] at h5
          show _ = if s.flag then 1 else 0
          simp at h5
          omega
      · cases he
        exact ⟨L, h.quiet hi rfl rfl rfl rfl rfl rfl hsnap rfl⟩
    | aFlag =>
      simp only [step1] at he
      cases he
      refine ⟨L, h.quiet hi rfl rfl rfl rfl rfl ?_ ?_ ?_⟩
      · split <;> rfl
      · split <;> trivial
      · have : fl1 (if s.fl.1 = 0 then .aCarve else .aUnflag) = fl1 .aFlag := by split <;> rfl
        rw [this]
    | aCarve =>
      simp only [step1] at he
      cases he
      obtain ⟨hb, hfr⟩ := hs base rfl rfl
      have hn : 0 < Arith.fbnextN s.cnt := by
        have := (Arith.C56_fbnext (x := s.cnt) (y := 0)).1; omega
      have hne : ∀ x ∈ s.B, x ∉ blocks sz base (Arith.fbnextN s.cnt) := by
        intro x hx hm
        have h1 := hfr x hx
        have h2 := blocks_range hm
        omega
      have hmem : ∀ x ∈ s.B, (initLoop (blocks sz base (Arith.fbnextN s.cnt)) 0 s.mem).1 x = s.mem x := fun x hx => initLoop_frame (hne x hx)
      have inB : ∀ {x}, 0 < s.B.count x → x ∈ s.B := fun h => List.count_pos_iff.1 h
      refine ⟨L, ?_, fun x => ?_, ?_, fun j q hj => ?_, ?_, hn, ?_⟩
      · refine chain_congr h.chain fun x hx => hmem x (inB ?_)
        have h1 := h.count x
        have h2 : 0 < L.count x := List.count_pos_iff.2 hx
        omega
      · have h4 := h.count x
        have h5 := tot_set (f := tc x)
          (y := .pLoad ⟨(initLoop (blocks sz base (Arith.fbnextN s.cnt)) 0 s.mem).2, base + 16, (blocks sz base (Arith.fbnextN s.cnt)).reverse, true⟩) hi
        simp only [tc, transit, List.count_nil, List.count_reverse] at h5
        show L.count x + s.held.count x + _ = (blocks sz base (Arith.fbnextN s.cnt) ++ s.B).count x
        rw [List.count_append]
        omega
      · refine List.pairwise_append.2 ⟨blocks_apart .., h.apart, fun a ha b hb => ?_⟩
        have h1 := hfr b hb
        have h2 := blocks_range ha
        omega
      · rcases set_get hi hj with ⟨-, rfl⟩ | ⟨-, hj⟩
        · exact init_seg hsz hn s.mem
        · refine pcOk_mono (h.pcs j q hj) (.inl rfl) (fun _ h0 => hmem _ (hsnap.2.2 h0)) (fun x hx => hmem x (inB ?_)) (fun _ hx => by simp [hx])
          have h1 := h.count x
          have h2 : 0 < (transit q).count x := List.count_pos_iff.2 hx
          have h3 := tot_ge (f := tc x) hj
          simp only [tc] at h3
          omega
      · have h4 := h.flag
        have h5 := tot_set (f := fl1)
          (y := .pLoad ⟨(initLoop (blocks sz base (Arith.fbnextN s.cnt)) 0 s.mem).2, base + 16, (blocks sz base (Arith.fbnextN s.cnt)).reverse, true⟩) hi
        simp only [fl1, flagged] at h5
        show _ = if s.flag then 1 else 0
        simp only [if_true] at h5
        omega
      · intro x hx
        rcases List.mem_append.1 hx with hx | hx
        · have := blocks_range hx; omega
        · exact h.pos x hx
    | aUnflag =>
      simp only [step1] at he
      cases he
      refine ⟨L, h.quiet hi rfl rfl rfl rfl rfl rfl trivial ?_⟩
      have h1 := tot_ge (f := fl1) hi
      rw [h.flag] at h1
      simp only [fl1, flagged, if_true] at h1 ⊢
      split at h1
      · next e => simp [e]
      · omega
    | aReload =>
      simp only [step1] at he
      cases he
      exact ⟨L, h.quiet hi rfl rfl rfl rfl rfl rfl hsnap rfl⟩
    | pLoad u =>
      simp only [step1] at he
      cases he
      exact ⟨L, h.quiet hi rfl rfl rfl rfl rfl rfl ⟨hpc, hsnap⟩ rfl⟩
    | pWrite u pp pt =>
      simp only [step1] at he
      cases he
      have ht := seg_mem hpc.1
      have hcu : 0 < u.S.count u.tgt := List.count_pos_iff.2 ht
      have hge := tot_ge (f := tc u.tgt) hi
      have htot := h.count u.tgt
      have hle := c1 u.tgt
      simp only [tc, transit] at hge
      have hL : ∀ x ∈ L, x ≠ u.tgt := by
        rintro x hx rfl
        have : 0 < L.count u.tgt := List.count_pos_iff.2 hx
        omega
      refine ⟨L, ?_, fun x => ?_, h.apart, fun j q hj => ?_, ?_, h.cnt, h.pos⟩
      · exact chain_congr h.chain fun x hx => by simp [upd, hL x hx]
      · have h4 := h.count x
        have h5 := tot_set (f := tc x) (y := .pCas u pp pt) hi
        simp only [tc, transit] at h5
        show L.count x + s.held.count x + _ = s.B.count x
        omega
      · rcases set_get hi hj with ⟨-, rfl⟩ | ⟨hij, hj⟩
        · refine ⟨seg_congr hpc.1 fun x _ hx => by simp [upd, hx], hpc.2, by simp [upd]⟩
        · refine pcOk_mono (h.pcs j q hj) (.inl rfl) (fun _ h0 => ?_) (fun x hx => ?_) (fun _ hx => hx)
          · obtain ⟨L', e, -⟩ := chain_head h.chain h0
            have := hL s.fl.1 (by simp [e])
            simp [upd, this]
          · have : x ≠ u.tgt := by
              rintro rfl
              have h2 : 0 < (transit q).count u.tgt := List.count_pos_iff.2 hx
              have h3 := tot_two (f := tc u.tgt) hi hj hij
              have h4 : tc u.tgt (.pWrite u pp pt) = u.S.count u.tgt := rfl
              have h5 : tc u.tgt q = (transit q).count u.tgt := rfl
              omega
            simp [upd, this]
      · have h4 := h.flag
        have h5 := tot_set (f := fl1) (y := .pCas u pp pt) hi
        have h6 : fl1 (.pCas u pp pt) = fl1 (.pWrite u pp pt) := rfl
        show _ = if s.flag then 1 else 0
        omega
    | pCas u pp pt =>
      simp only [step1] at he
      obtain ⟨h1, h2, h3⟩ := hpc
      split at he
      · next hfl =>
        cases he
        have e1 : s.fl.1 = pp := by rw [hfl]
        have e2 : s.fl.2 = pt := by rw [hfl]
        refine ⟨u.S ++ L, seg_append h1 (by rw [h3, ← e1]; exact h.chain), fun x => ?_, h.apart, fun j q hj => ?_, ?_, h.cnt, h.pos⟩
        · have h4 := h.count x
          have h5 := tot_set (f := tc x) (y := if u.carve then .aUnflag else .idle) hi
          have h6 : tc x (if u.carve then .aUnflag else .idle) = 0 := by split <;> rfl
          have h7 : tc x (.pCas u pp pt) = u.S.count x := rfl
          show (u.S ++ L).count x + s.held.count x + _ = s.B.count x
          rw [List.count_append]
          omega
        · rcases set_get hi hj with ⟨-, rfl⟩ | ⟨-, hj⟩
          · split <;> trivial
          · refine pcOk_mono (h.pcs j q hj) (.inr (by simp only; omega)) (fun e => ?_) (fun _ _ => rfl) (fun _ hx => hx)
            have : (u.top, pt + 1).2 = s.fl.2 := by rw [← e]
            simp only at this; omega
        · have h4 := h.flag
          have h5 := tot_set (f := fl1) (y := if u.carve then .aUnflag else .idle) hi
          have h6 : fl1 (if u.carve then .aUnflag else .idle) = fl1 (.pCas u pp pt) := by
            cases hc : u.carve <;> simp [fl1, flagged, hc]
          rw [h6] at h5
          show _ = if s.flag then 1 else 0
          omega
      · cases he
        exact ⟨L, h.quiet hi rfl rfl rfl rfl rfl rfl ⟨h1, hsnap⟩ rfl⟩

theorem new_inv {init base n : Nat} (hsz : 0 < sz) (hi : 0 < init) (hb : 0 < base) (mem : Nat → Nat) :
    Inv sz (new sz init base mem) (List.replicate n .idle) (blocks sz base init).reverse := by
  have hseg := init_seg (base := base) hsz hi mem
  refine ⟨?_, fun x => ?_, blocks_apart .., fun i pc hpc => ?_, ?_, hi, fun x hx => ?_⟩
  · have h1 : Seg (upd (initLoop (blocks sz base init) 0 mem).1 (base + 16) 0) (base + 16) (initLoop (blocks sz base init) 0 mem).2 (blocks sz base init).reverse :=
      seg_congr hseg fun x _ hx => by simp [upd, hx]
    have := seg_append (L := []) h1 (by simp [Chain, upd])
    rw [List.append_nil] at this
    exact this
  · rw [tot_replicate (by simp [tc, transit])]
    simp [new]
  · rw [List.getElem?_replicate] at hpc
    split at hpc
    · cases hpc; trivial
    · cases hpc
  · rw [tot_replicate (by simp [fl1, flagged])]
    simp [new]
  · have := blocks_range hx; omega

theorem Inv.write (hsz : 0 < sz) (h : Inv sz s ags L) {p v : Nat} (hp : p ∈ s.held) : Inv sz { s with mem := upd s.mem p v } ags L := by
  have hcp : 0 < s.held.count p := List.count_pos_iff.2 hp
  have htot := h.count p
  have hle := count_le_one hsz h.apart p
  have hL : ∀ x ∈ L, x ≠ p := by
    rintro x hx rfl
    have : 0 < L.count x := List.count_pos_iff.2 hx
    omega
  refine ⟨chain_congr h.chain fun x hx => by simp [upd, hL x hx], h.count, h.apart, fun j q hj => ?_, h.flag, h.cnt, h.pos⟩
  refine pcOk_mono (h.pcs j q hj) (.inl rfl) (fun _ h0 => ?_) (fun x hx => ?_) (fun _ hx => hx)
  · obtain ⟨L', e, -⟩ := chain_head h.chain h0
    have := hL s.fl.1 (by simp [e])
    simp [upd, this]
  · have : x ≠ p := by
      rintro rfl
      have h2 : 0 < (transit q).count x := List.count_pos_iff.2 hx
      have h3 := tot_ge (f := tc x) hj
      simp only [tc] at h3
      omega
    simp [upd, this]

theorem reach_inv (hsz : 0 < sz) (h : Reach sz s ags) : ∃ L, Inv sz s ags L := by
  induction h with
  | new hi hb => exact ⟨_, new_inv hsz hi hb _⟩
  | step _ hi hs he ih => obtain ⟨L, ih⟩ := ih; exact ih.step hsz hi hs he
  | write _ hp ih => obtain ⟨L, ih⟩ := ih; exact ⟨L, ih.write hsz hp⟩

/-- C41: no block is given to two holders at once: the blocks that were returned by `allocate` and not passed to `deallocate` since do not
overlap, whatever the interleaving. -/
theorem C41_disjoint (hsz : 8 ≤ sz) (h : Reach sz s ags) : s.held.Pairwise fun a b => a + sz ≤ b ∨ b + sz ≤ a := by
  obtain ⟨L, h⟩ := reach_inv (by omega) h
  have hap := h.apart
  have hB : ∀ x, x ∈ s.held → x ∈ s.B := fun x hx => List.count_pos_iff.1 (by
    have h1 := h.count x
    have h2 : 0 < s.held.count x := List.count_pos_iff.2 hx
    omega)
  have hnd : s.held.Nodup := List.nodup_iff_count.2 fun x => by
    have h1 := h.count x
    have h2 := count_le_one (by omega) h.apart x
    omega
  rw [List.Nodup, List.pairwise_iff_getElem] at hnd
  rw [List.pairwise_iff_getElem] at hap ⊢
  intro i j hi hj hij
  have hne := hnd i j hi hj hij
  obtain ⟨a, ha, ea⟩ := List.getElem_of_mem (hB _ (List.getElem_mem hi))
  obtain ⟨b, hb, eb⟩ := List.getElem_of_mem (hB _ (List.getElem_mem hj))
  rw [← ea, ← eb] at hne ⊢
  rcases Nat.lt_trichotomy a b with e | e | e
  · exact hap a b ha hb e
  · subst e; exact absurd rfl hne
  · exact (hap b a hb ha e).symm

/-- C41: no block is lost or duplicated: whenever no call is under way, every block ever made is either held or on the free list, once. -/
theorem C41_no_loss (hsz : 8 ≤ sz) (h : Reach sz s ags) (hidle : ∀ pc ∈ ags, pc = .idle) :
    ∃ L, Chain s.mem s.fl.1 L ∧ (L ++ s.held).Perm s.B ∧ s.B.Nodup := by
  obtain ⟨L, h⟩ := reach_inv (by omega) h
  refine ⟨L, h.chain, ?_, apart_nodup (by omega) h.apart⟩
  rw [List.perm_iff_count]
  intro x
  have h1 := h.count x
  rw [tot_zero (fun pc hpc => by rw [hidle pc hpc]; simp [tc, transit])] at h1
  rw [List.count_append]
  omega

/-- C41: a thread only reads or writes the first word of a block that was made (they are never given back to the system), and only one thread
at a time makes a chunk. -/
theorem C41_safe (hsz : 8 ≤ sz) (h : Reach sz s ags) {i : Nat} {pc : PC} (hi : ags[i]? = some pc) :
    (∀ p t, pc = .aHave p t → p = 0 ∨ p ∈ s.B) ∧ (∀ u pp pt, pc = .pWrite u pp pt → u.tgt ∈ s.B ∧ u.tgt ∉ s.held) ∧
    (flagged pc = true → s.flag = true ∧ ∀ (j : Nat) (pc' : PC), ags[j]? = some pc' → j ≠ i → flagged pc' = false) := by
  obtain ⟨L, h⟩ := reach_inv (by omega) h
  refine ⟨?_, ?_, ?_⟩
  · rintro p t rfl
    have h1 := h.pcs i _ hi
    by_cases e : p = 0
    · exact .inl e
    · exact .inr (h1.2.2 e)
  · rintro u pp pt rfl
    have h1 := h.pcs i _ hi
    have hcu : 0 < u.S.count u.tgt := List.count_pos_iff.2 (seg_mem h1.1)
    have hge := tot_ge (f := tc u.tgt) hi
    have htot := h.count u.tgt
    have hle := count_le_one (by omega) h.apart u.tgt
    simp only [tc, transit] at hge
    refine ⟨List.count_pos_iff.1 (by omega), fun hm => ?_⟩
    have : 0 < s.held.count u.tgt := List.count_pos_iff.2 hm
    omega
  · intro hf
    have h1 := tot_ge (f := fl1) hi
    have h2 := h.flag
    simp only [fl1, hf, if_true] at h1
    refine ⟨?_, fun j pc' hj hne => ?_⟩
    · cases e : s.flag with
      | true => rfl
      | false => rw [e] at h2; simp at h2; omega
    · have h3 := tot_two (f := fl1) hi hj (Ne.symm hne)
      cases e : flagged pc' with
      | false => rfl
      | true =>
        simp only [fl1, hf, e, if_true] at h3
        split at h2 <;> omega

/-- The hypotheses are met: two threads take the same snapshot, the first gets the block, the second gets the other one, and the first frees
its block again. -/
example : ∃ s, Reach 8 s [.idle, .idle] ∧ s.held = [1016] ∧ s.fl = (1024, 4) ∧ s.mem 1024 = 0 := by
  have h0 : Reach 8 (new 8 2 1000 fun _ => 0) [.idle, .idle] := .new (init := 2) (n := 2) (by decide) (by decide)
  have h1 := h0.step (i := 0) (a := .alloc) rfl (fun _ _ h => nomatch h) rfl
  have h2 := h1.step (i := 1) (a := .alloc) rfl (fun _ _ h => nomatch h) rfl
  have h3 := h2.step (i := 0) (a := .go 0) rfl (fun _ _ h => nomatch h) rfl
  have h4 := h3.step (i := 1) (a := .go 0) rfl (fun _ _ h => nomatch h) rfl
  have h5 := h4.step (i := 0) (a := .go 0) rfl (fun _ _ h => nomatch h) rfl
  have h6 := h5.step (i := 1) (a := .go 0) rfl (fun _ _ h => nomatch h) rfl
  have h7 := h6.step (i := 1) (a := .go 0) rfl (fun _ _ h => nomatch h) rfl
  have h8 := h7.step (i := 1) (a := .go 0) rfl (fun _ _ h => nomatch h) rfl
  have h9 := h8.step (i := 0) (a := .free 1024) rfl (fun _ _ h => nomatch h) rfl
  have h10 := h9.step (i := 0) (a := .go 0) rfl (fun _ _ h => nomatch h) rfl
  have h11 := h10.step (i := 0) (a := .go 0) rfl (fun _ _ h => nomatch h) rfl
  have h12 := h11.step (i := 0) (a := .go 0) rfl (fun _ _ h => nomatch h) rfl
  exact ⟨_, h12, rfl, rfl, rfl⟩

end Verif.Alloc.Lockless
