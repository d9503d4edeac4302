import Verif.Alloc.GreedyAlloc

/-! # C35: `GreedyAlloc` hands out disjoint regions under concurrency -/

namespace Verif.Alloc.Greedy
open Verif.Sync.RWLock (PC Act step1 holdsR holdsW owner counted)

/-- The places in the lock that go with a phase. -/
def phOk : PC × Ph → Bool
  | (pc, .out) => pc == .idle
  | (pc, .enter _) => pc == .idle || pc == .rTry || pc == .rBack || pc == .rWait || pc == .R
  | (pc, .got _ _) => pc == .R
  | (pc, .fit _ _ _) => pc == .R
  | (pc, .full _ _) => pc == .aupTry || pc == .aupWait || pc == .U || pc == .R
  | (pc, .upStore _) => pc == .U
  | (pc, .down _) => pc == .U
  | (pc, .leave _) => pc == .R
  | (pc, .clrLock) => pc == .lockTry || pc == .lockWait || pc == .W
  | (pc, .clrFree) => pc == .W
  | (pc, .clrAlloc _) => pc == .W
  | (pc, .clrUnlock) => pc == .W

/-- Phases that make no claim on shared memory. -/
def plain : Ph → Bool
  | .out | .enter _ | .full _ _ | .down _ | .leave _ | .clrLock | .clrUnlock => true
  | _ => false

structure J (c : Cfg) (sh : Sh) (ags : List (PC × Ph)) : Prop where
  lk : Verif.Sync.RWLock.Inv sh.l (ags.map (·.1))
  ok : ∀ x ∈ ags, phOk x = true
  /-- claims of two threads do not overlap -/
  cc : ∀ (i j : Nat) (p p' : PC) (q r q' r' : Nat), i ≠ j → ags[i]? = some (p, .got q r) → ags[j]? = some (p', .got q' r') →
    Apart r (rsize c q) r' (rsize c q')
  /-- claims are below `_curpos`, aligned, and apart from the regions of the root chunk -/
  cl : ∀ (i : Nat) (p : PC) (q r : Nat), ags[i]? = some (p, .got q r) → r + rsize c q ≤ sh.curpos ∧ r % c.align = 0 ∧
    ∀ g ∈ sh.live, ∀ root, sh.chunks.head? = some root → g.b = root.1 → Apart g.r g.z r (rsize c q)
  lc : ∀ g ∈ sh.live, ∀ root, sh.chunks.head? = some root → g.b = root.1 → g.r + g.z ≤ sh.curpos
  li : ∀ g ∈ sh.live, g.r % c.align = 0 ∧ ∃ size, (g.b, size) ∈ sh.chunks ∧ g.r + g.z ≤ size
  lp : sh.live.Pairwise fun g g' => Apart (g.addr c) g.z (g'.addr c) g'.z
  cp : sh.chunks.Pairwise fun k k' => Apart k.1 (c.hdr + k.2) k'.1 (c.hdr + k'.2)
  ca : ∀ k ∈ sh.chunks, k.1 % c.align = 0
  cur : sh.curpos % c.align = 0
  fi : ∀ (i : Nat) (p : PC) (q r b : Nat), ags[i]? = some (p, .fit q r b) → ⟨b, r, rsize c q⟩ ∈ sh.live
  us : ∀ (i : Nat) (p : PC) (q : Nat), ags[i]? = some (p, .upStore q) → ∀ g ∈ sh.live, ∀ root, sh.chunks.head? = some root → g.b ≠ root.1
  cf : ∀ (i : Nat) (p : PC) (ph : Ph), ags[i]? = some (p, ph) → ph = .clrFree ∨ (∃ n, ph = .clrAlloc n) → sh.live = []
  nc : sh.chunks = [] → ∃ (i : Nat) (p : PC) (n : Nat), ags[i]? = some (p, .clrAlloc n)

theorem get_map {ags : List (PC × Ph)} {i : Nat} {x : PC × Ph} (h : ags[i]? = some x) : (ags.map (·.1))[i]? = some x.1 := by simp [h]

/-- A thread that may write is alone. -/
theorem excl {l : Nat} {ags : List (PC × Ph)} (hi : Verif.Sync.RWLock.Inv l (ags.map (·.1))) {i j : Nat} {x y : PC × Ph} (hij : i ≠ j)
    (hx : ags[i]? = some x) (hy : ags[j]? = some y) (hw : holdsW x.1 = true) : holdsR y.1 = false ∧ holdsW y.1 = false := by
  have hxo : owner x.1 = true := by
    obtain ⟨p, q⟩ := x
    cases p <;> simp_all [holdsW, owner]
  have h1 : owner y.1 = true → False := fun e => by
    have := Verif.Sync.RWLock.two_le (p := owner) (get_map hx) (get_map hy) hij hxo e rfl
    have := hi.one
    omega
  have h2 : holdsR y.1 = true → False := fun e => by
    have := Verif.Sync.RWLock.pos_of (p := holdsR) (get_map hy) e
    have := hi.excl (Verif.Sync.RWLock.pos_of (get_map hx) hw)
    omega
  constructor
  · simpa using h2
  · cases hh : holdsW y.1
    · rfl
    · exfalso
      obtain ⟨p, q⟩ := y
      cases p <;> simp_all [holdsW, owner]

theorem set_get {ags : List (PC × Ph)} {i : Nat} {x y z : PC × Ph} (hx : ags[i]? = some x) {j : Nat} (h : (ags.set i y)[j]? = some z) :
    (j = i ∧ z = y) ∨ (j ≠ i ∧ ags[j]? = some z) := by
  rw [List.getElem?_set] at h
  split at h
  · next e =>
    subst e
    rw [if_pos (List.getElem?_eq_some_iff.1 hx).1] at h
    exact Or.inl ⟨rfl, by simpa using h.symm⟩
  · next e => exact Or.inr ⟨fun h => e h.symm, h⟩

theorem ok_set {ags : List (PC × Ph)} (h : ∀ x ∈ ags, phOk x = true) {i : Nat} {y : PC × Ph} (hy : phOk y = true) :
    ∀ x ∈ ags.set i y, phOk x = true := by
  intro x hx
  rcases List.mem_or_eq_of_mem_set hx with h1 | h1
  · exact h x h1
  · rw [h1]; exact hy

/-- Agents that were in `clrAlloc` still are, if another makes a step. -/
theorem nc_set {ags : List (PC × Ph)} {i : Nat} {x y : PC × Ph} (hx : ags[i]? = some x) (hn : ∀ n, x.2 ≠ .clrAlloc n)
    (h : ∃ (i : Nat) (p : PC) (n : Nat), ags[i]? = some (p, .clrAlloc n)) :
    ∃ (j : Nat) (p : PC) (n : Nat), (ags.set i y)[j]? = some (p, .clrAlloc n) := by
  obtain ⟨j, p, n, hj⟩ := h
  have hne : i ≠ j := by
    rintro rfl
    rw [hx] at hj
    cases hj
    exact hn n rfl
  exact ⟨j, p, n, by rw [List.getElem?_set_ne hne]; exact hj⟩

theorem lk_same {l : Nat} {ags : List (PC × Ph)} {i : Nat} {p : PC} {q q' : Ph} (hx : ags[i]? = some (p, q))
    (hi : Verif.Sync.RWLock.Inv l (ags.map (·.1))) : Verif.Sync.RWLock.Inv l ((ags.set i (p, q')).map (·.1)) := by
  have : (ags.set i (p, q')).map (·.1) = ags.map (·.1) := by
    refine List.ext_getElem? fun j => ?_
    rw [List.map_set, List.getElem?_set]
    split
    · next e =>
      subst e
      rw [List.length_map, if_pos (List.getElem?_eq_some_iff.1 hx).1, get_map hx]
    · rfl
  rw [this]
  exact hi

/-- A step that only changes the word of the lock, to a phase that makes no claims. -/
theorem J_plain {c : Cfg} {sh : Sh} {ags : List (PC × Ph)} (h : J c sh ags) {i : Nat} {x y : PC × Ph} (hx : ags[i]? = some x) {l' : Nat}
    (hl : Verif.Sync.RWLock.Inv l' ((ags.set i y).map (·.1))) (hy : phOk y = true) (hp : plain y.2 = true) (hn : ∀ n, x.2 ≠ .clrAlloc n) :
    J c { sh with l := l' } (ags.set i y) where
  lk := hl
  ok := ok_set h.ok hy
  cc := by
    intro i1 j1 p p' q r q' r' hij h1 h2
    rcases set_get hx h1 with ⟨-, e⟩ | ⟨-, h1⟩
    · rw [← e] at hp; cases hp
    · rcases set_get hx h2 with ⟨-, e⟩ | ⟨-, h2⟩
      · rw [← e] at hp; cases hp
      · exact h.cc i1 j1 p p' q r q' r' hij h1 h2
  cl := by
    intro i1 p q r h1
    rcases set_get hx h1 with ⟨-, e⟩ | ⟨-, h1⟩
    · rw [← e] at hp; cases hp
    · exact h.cl i1 p q r h1
  lc := h.lc
  li := h.li
  lp := h.lp
  cp := h.cp
  ca := h.ca
  cur := h.cur
  fi := by
    intro i1 p q r b h1
    rcases set_get hx h1 with ⟨-, e⟩ | ⟨-, h1⟩
    · rw [← e] at hp; cases hp
    · exact h.fi i1 p q r b h1
  us := by
    intro i1 p q h1
    rcases set_get hx h1 with ⟨-, e⟩ | ⟨-, h1⟩
    · rw [← e] at hp; cases hp
    · exact h.us i1 p q h1
  cf := by
    intro i1 p ph h1 h2
    rcases set_get hx h1 with ⟨-, e⟩ | ⟨-, h1⟩
    · rcases h2 with h2 | ⟨n, h2⟩ <;> (rw [← e, h2] at hp; cases hp)
    · exact h.cf i1 p ph h1 h2
  nc := fun e => nc_set hx hn (h.nc e)

/-- The same for a step of the lock. -/
theorem J_lock {c : Cfg} {sh : Sh} {ags : List (PC × Ph)} (h : J c sh ags) {i : Nat} {x : PC × Ph} (hx : ags[i]? = some x) {a : Act} {ph : Ph}
    {y : (PC × Ph) × Sh × Option (Nat × Nat)} (hs : lockStep a x.1 ph sh = some y) (hp : plain ph = true) (hn : ∀ n, x.2 ≠ .clrAlloc n)
    (hok : ∀ r, step1 a x.1 sh.l = some r → phOk (r.1, ph) = true) : J c y.2.1 (ags.set i y.1) := by
  simp only [lockStep, Option.map_eq_some_iff] at hs
  obtain ⟨r, hr, rfl⟩ := hs
  refine J_plain h hx ?_ (hok r hr) hp hn
  have := Verif.Sync.RWLock.step1_inv h.lk (get_map hx) hr
  rw [List.map_set]
  exact this

theorem rsize_mod (c : Cfg) (q : Nat) : rsize c q % c.align = 0 := Nat.mul_mod_left _ _

theorem add_mod0 {a b n : Nat} (ha : a % n = 0) (hb : b % n = 0) : (a + b) % n = 0 := by rw [Nat.add_mod, ha, hb]; simp

/-- `fetch_add` on `_curpos`. -/
theorem J_fetch {c : Cfg} {sh : Sh} {ags : List (PC × Ph)} (h : J c sh ags) {i req : Nat} (hx : ags[i]? = some (.R, .enter req)) :
    J c { sh with curpos := sh.curpos + rsize c req } (ags.set i (.R, .got req sh.curpos)) where
  lk := lk_same hx h.lk
  ok := ok_set h.ok rfl
  cc := by
    intro i1 j1 p p' q r q' r' hij h1 h2
    rcases set_get hx h1 with ⟨e1, e⟩ | ⟨-, h1⟩
    · cases e
      rcases set_get hx h2 with ⟨e2, -⟩ | ⟨-, h2⟩
      · exact absurd (e1.trans e2.symm) hij
      · exact Or.inr (h.cl j1 p' q' r' h2).1
    · rcases set_get hx h2 with ⟨-, e⟩ | ⟨-, h2⟩
      · cases e
        exact Or.inl (h.cl i1 p q r h1).1
      · exact h.cc i1 j1 p p' q r q' r' hij h1 h2
  cl := by
    intro i1 p q r h1
    rcases set_get hx h1 with ⟨-, e⟩ | ⟨-, h1⟩
    · cases e
      exact ⟨Nat.le_refl _, h.cur, fun g hg root hr hb => Or.inl (h.lc g hg root hr hb)⟩
    · obtain ⟨a1, a2⟩ := h.cl i1 p q r h1
      exact ⟨Nat.le_trans a1 (Nat.le_add_right _ _), a2⟩
  lc := fun g hg root hr hb => Nat.le_trans (h.lc g hg root hr hb) (Nat.le_add_right _ _)
  li := h.li
  lp := h.lp
  cp := h.cp
  ca := h.ca
  cur := add_mod0 h.cur (rsize_mod c req)
  fi := by
    intro i1 p q r b h1
    rcases set_get hx h1 with ⟨-, e⟩ | ⟨-, h1⟩
    · cases e
    · exact h.fi i1 p q r b h1
  us := by
    intro i1 p q h1
    rcases set_get hx h1 with ⟨-, e⟩ | ⟨-, h1⟩
    · cases e
    · exact h.us i1 p q h1
  cf := by
    intro i1 p ph h1 h2
    rcases set_get hx h1 with ⟨-, e⟩ | ⟨-, h1⟩
    · cases e
      rcases h2 with h2 | ⟨n, h2⟩ <;> cases h2
    · exact h.cf i1 p ph h1 h2
  nc := fun e => nc_set hx (by intro n h; cases h) (h.nc e)

/-- While a thread has a read lock no other is in the parts of the code that need more. -/
theorem reader_alone {c : Cfg} {sh : Sh} {ags : List (PC × Ph)} (h : J c sh ags) {i j : Nat} {x : Ph} {p : PC} {ph : Ph}
    (hx : ags[i]? = some (.R, x)) (hij : j ≠ i) (hj : ags[j]? = some (p, ph)) (hph : ph = .clrFree ∨ (∃ n, ph = .clrAlloc n) ∨ ∃ q, ph = .upStore q) :
    False := by
  have hok := h.ok _ (List.mem_of_getElem? hj)
  have hw : holdsW p = true := by
    rcases hph with rfl | ⟨n, rfl⟩ | ⟨q, rfl⟩ <;> simp only [phOk, beq_iff_eq] at hok <;> rw [hok] <;> rfl
  have := (excl h.lk hij hj hx hw).1
  cases this

/-- Two chunks of one address are the same, since headers are not empty. -/
theorem chunk_unique {c : Cfg} {sh : Sh} {ags : List (PC × Ph)} (h : J c sh ags) (hh : 0 < c.hdr) {k k' : Nat × Nat} (hk : k ∈ sh.chunks)
    (hk' : k' ∈ sh.chunks) (hne : k.1 ≠ k'.1) : Apart k.1 (c.hdr + k.2) k'.1 (c.hdr + k'.2) := by
  have := h.cp
  have hsym : ∀ a b : Nat × Nat, Apart a.1 (c.hdr + a.2) b.1 (c.hdr + b.2) → Apart b.1 (c.hdr + b.2) a.1 (c.hdr + a.2) := fun a b h => h.symm
  rw [List.pairwise_iff_getElem] at this
  obtain ⟨i, hi, rfl⟩ := List.getElem_of_mem hk
  obtain ⟨j, hj, rfl⟩ := List.getElem_of_mem hk'
  rcases Nat.lt_trichotomy i j with e | e | e
  · exact this i j hi hj e
  · subst e; exact absurd rfl hne
  · exact hsym _ _ (this j i hj hi e)

/-- The region is recorded. -/
theorem J_grant {c : Cfg} {sh : Sh} {ags : List (PC × Ph)} (h : J c sh ags) (hh : 0 < c.hdr) {i req r : Nat}
    (hx : ags[i]? = some (.R, .got req r)) {root : Nat × Nat} (hr : sh.chunks.head? = some root) (hfit : ¬ r + rsize c req ≥ root.2) :
    J c { sh with live := ⟨root.1, r, rsize c req⟩ :: sh.live } (ags.set i (.R, .fit req r root.1)) := by
  have hmem : root ∈ sh.chunks := List.mem_of_mem_head? (by rw [hr]; rfl)
  obtain ⟨c1, c2, c3⟩ := h.cl i _ _ _ hx
  refine ⟨lk_same hx h.lk, ok_set h.ok rfl, ?_, ?_, ?_, ?_, ?_, h.cp, h.ca, h.cur, ?_, ?_, ?_, ?_⟩
  · intro i1 j1 p p' q r q' r' hij h1 h2
    rcases set_get hx h1 with ⟨-, e⟩ | ⟨-, h1⟩
    · cases e
    · rcases set_get hx h2 with ⟨-, e⟩ | ⟨-, h2⟩
      · cases e
      · exact h.cc i1 j1 p p' q r q' r' hij h1 h2
  · intro i1 p q r' h1
    rcases set_get hx h1 with ⟨-, e⟩ | ⟨hne, h1⟩
    · cases e
    · obtain ⟨a1, a2, a3⟩ := h.cl i1 p q r' h1
      refine ⟨a1, a2, fun g hg root' hr' hb => ?_⟩
      rcases List.mem_cons.1 hg with e | e
      · rw [e]
        exact h.cc i i1 _ _ _ _ _ _ (Ne.symm hne) hx h1
      · exact a3 g e root' hr' hb
  · intro g hg root' hr' hb
    rcases List.mem_cons.1 hg with e | e
    · rw [e]
      exact c1
    · exact h.lc g e root' hr' hb
  · intro g hg
    rcases List.mem_cons.1 hg with e | e
    · rw [e]
      exact ⟨c2, root.2, hmem, by simp only; omega⟩
    · exact h.li g e
  · refine List.pairwise_cons.2 ⟨fun g hg => ?_, h.lp⟩
    by_cases hb : g.b = root.1
    · have := c3 g hg root hr hb
      simp only [Reg.addr, hb]
      unfold Apart at *
      omega
    · obtain ⟨-, size, hs, hle⟩ := h.li g hg
      have := chunk_unique h hh hmem hs (fun e => hb e.symm)
      simp only [Reg.addr]
      unfold Apart at *
      omega
  · intro i1 p q r' b h1
    rcases set_get hx h1 with ⟨-, e⟩ | ⟨-, h1⟩
    · cases e
      exact List.mem_cons_self
    · exact List.mem_cons_of_mem _ (h.fi i1 p q r' b h1)
  · intro i1 p q h1
    rcases set_get hx h1 with ⟨-, e⟩ | ⟨hne, h1⟩
    · cases e
    · exact (reader_alone h hx hne h1 (Or.inr (Or.inr ⟨_, rfl⟩))).elim
  · intro i1 p ph h1 h2
    rcases set_get hx h1 with ⟨-, e⟩ | ⟨hne, h1⟩
    · cases e
      rcases h2 with h2 | ⟨n, h2⟩ <;> cases h2
    · exact (reader_alone h hx hne h1 (h2.imp_right Or.inl)).elim
  · exact fun e => nc_set hx (by intro n h; cases h) (h.nc e)

/-- While a thread may write, no other makes claims or is in a part of the code that needs a lock. -/
theorem writer_alone {c : Cfg} {sh : Sh} {ags : List (PC × Ph)} (h : J c sh ags) {i j : Nat} {x : Ph} {w p : PC} {ph : Ph}
    (hx : ags[i]? = some (w, x)) (hw : holdsW w = true) (hij : j ≠ i) (hj : ags[j]? = some (p, ph)) :
    plain ph = true ∧ ph ≠ .clrUnlock ∧ ∀ q, ph ≠ .down q := by
  have hok := h.ok _ (List.mem_of_getElem? hj)
  have := excl h.lk (Ne.symm hij) hx hj hw
  cases ph <;> simp only [phOk, beq_iff_eq] at hok <;> simp_all [plain, holdsR, holdsW]

/-- A step of a thread that may write: other threads' phases do not matter. -/
theorem J_writer {c : Cfg} {sh : Sh} {ags : List (PC × Ph)} (h : J c sh ags) {i : Nat} {x y : Ph} {w : PC}
    (hx : ags[i]? = some (w, x)) (hw : holdsW w = true) (hok : phOk (w, y) = true) (hy : ∀ q r, y ≠ .got q r) (hy' : ∀ q r b, y ≠ .fit q r b)
    {sh' : Sh} (hl : sh'.l = sh.l)
    (lc : ∀ g ∈ sh'.live, ∀ root, sh'.chunks.head? = some root → g.b = root.1 → g.r + g.z ≤ sh'.curpos)
    (li : ∀ g ∈ sh'.live, g.r % c.align = 0 ∧ ∃ size, (g.b, size) ∈ sh'.chunks ∧ g.r + g.z ≤ size)
    (lp : sh'.live.Pairwise fun g g' => Apart (g.addr c) g.z (g'.addr c) g'.z)
    (cp : sh'.chunks.Pairwise fun k k' => Apart k.1 (c.hdr + k.2) k'.1 (c.hdr + k'.2))
    (ca : ∀ k ∈ sh'.chunks, k.1 % c.align = 0) (cur : sh'.curpos % c.align = 0)
    (us : ∀ q, y = .upStore q → ∀ g ∈ sh'.live, ∀ root, sh'.chunks.head? = some root → g.b ≠ root.1)
    (cf : y = .clrFree ∨ (∃ n, y = .clrAlloc n) → sh'.live = [])
    (nc : sh'.chunks = [] → ∃ n, y = .clrAlloc n) : J c sh' (ags.set i (w, y)) where
  lk := by rw [hl]; exact lk_same hx h.lk
  ok := ok_set h.ok hok
  cc := by
    intro i1 j1 p p' q r q' r' hij h1 h2
    rcases set_get hx h1 with ⟨-, e⟩ | ⟨hne, h1⟩
    · cases e; exact absurd rfl (hy _ _)
    · have := (writer_alone h hx hw hne h1).1
      cases this
  cl := by
    intro i1 p q r h1
    rcases set_get hx h1 with ⟨-, e⟩ | ⟨hne, h1⟩
    · cases e; exact absurd rfl (hy _ _)
    · have := (writer_alone h hx hw hne h1).1
      cases this
  lc := lc
  li := li
  lp := lp
  cp := cp
  ca := ca
  cur := cur
  fi := by
    intro i1 p q r b h1
    rcases set_get hx h1 with ⟨-, e⟩ | ⟨hne, h1⟩
    · cases e; exact absurd rfl (hy' _ _ _)
    · have := (writer_alone h hx hw hne h1).1
      cases this
  us := by
    intro i1 p q h1
    rcases set_get hx h1 with ⟨-, e⟩ | ⟨hne, h1⟩
    · cases e; exact us q rfl
    · have := (writer_alone h hx hw hne h1).1
      cases this
  cf := by
    intro i1 p ph h1 h2
    rcases set_get hx h1 with ⟨-, e⟩ | ⟨hne, h1⟩
    · cases e; exact cf h2
    · have := (writer_alone h hx hw hne h1).1
      rcases h2 with rfl | ⟨n, rfl⟩ <;> cases this
  nc := by
    intro e
    obtain ⟨n, hn⟩ := nc e
    exact ⟨i, w, n, by rw [List.getElem?_set]; simp [(List.getElem?_eq_some_iff.1 hx).1, hn]⟩

theorem fbnext_pos (n : Nat) : 0 < Verif.Arith.fbnextN n := Nat.lt_of_le_of_lt (Nat.zero_le _) (Verif.Arith.C56_fbnext (x := n) (y := n)).1

theorem step_J {c : Cfg} (hh : 0 < c.hdr) {s s' : St} {i : Nat} {a : Call} {r : Option (Nat × Nat)} (h : J c s.sh s.ags)
    (hs : step c i a s = some (s', r)) (hok : StepOk c a s s') : J c s'.sh s'.ags := by
  simp only [step, Option.bind_eq_some_iff, Option.map_eq_some_iff, Prod.mk.injEq] at hs
  obtain ⟨x, hx, y, hy, rfl, rfl⟩ := hs
  simp only [StepOk] at hok
  have hpx := h.ok _ (List.mem_of_getElem? hx)
  unfold stepA at hy
  split at hy
  -- alloc
  · simp only [Option.some.injEq] at hy
    subst hy
    exact J_plain h hx (lk_same hx h.lk) rfl rfl (by intro n h; cases h)
  -- clear
  · refine J_lock h hx hy rfl (by intro n h; cases h) (fun r hr => ?_)
    simp only [step1, Option.some.injEq] at hr
    subst hr
    rfl
  -- enter, idle
  · refine J_lock h hx hy rfl (by intro n h; cases h) (fun r hr => ?_)
    simp only [step1, Option.some.injEq] at hr
    subst hr
    rfl
  -- enter, R
  · simp only [Option.some.injEq] at hy
    subst hy
    exact J_fetch h hx
  -- enter
  · refine J_lock h hx hy rfl (by intro n h; cases h) (fun r hr => ?_)
    simp only [phOk, Bool.or_eq_true, beq_iff_eq] at hpx
    rcases hpx with (((e | e) | e) | e) | e
    · subst e; simp_all
    · subst e
      simp only [step1, Option.some.injEq] at hr
      subst hr
      simp only [phOk]
      split <;> rfl
    · subst e
      simp only [step1, Option.some.injEq] at hr
      subst hr
      simp only [phOk]
      split <;> rfl
    · subst e
      simp only [step1, Option.some.injEq] at hr
      subst hr
      simp only [phOk]
      split <;> rfl
    · subst e; simp_all
  -- got
  · simp only [Option.bind_eq_some_iff] at hy
    obtain ⟨root, hr, hy⟩ := hy
    split at hy
    · refine J_lock h hx hy rfl (by intro n h; cases h) (fun r hr => ?_)
      simp only [step1, Option.some.injEq] at hr
      subst hr
      rfl
    · next hf =>
      simp only [Option.some.injEq] at hy
      subst hy
      exact J_grant h hh hx hr hf
  -- full, U
  · next base req rend =>
    simp only [Option.map_eq_some_iff] at hy
    obtain ⟨root, hr, hy⟩ := hy
    split at hy
    · subst hy
      obtain ⟨hb, hsys⟩ := hok base rfl _ rfl
      refine J_writer h hx rfl rfl (by intro q r h; cases h) (by intro q r b h; cases h) rfl ?_ ?_ h.lp ?_ ?_ h.cur ?_ ?_ ?_
      · intro g hg root' hr' hb'
        simp only [List.head?_cons, Option.some.injEq] at hr'
        subst hr'
        exfalso
        obtain ⟨-, size, hm, -⟩ := h.li g hg
        have := hsys _ hm
        simp only at hb'
        unfold Apart at this
        simp only at this
        omega
      · intro g hg
        obtain ⟨h1, size, hm, h2⟩ := h.li g hg
        exact ⟨h1, size, List.mem_cons_of_mem _ hm, h2⟩
      · exact List.pairwise_cons.2 ⟨fun k hk => hsys k hk, h.cp⟩
      · intro k hk
        rcases List.mem_cons.1 hk with e | e
        · rw [e]; exact hb
        · exact h.ca k e
      · intro q _ g hg root' hr' hb'
        simp only [List.head?_cons, Option.some.injEq] at hr'
        subst hr'
        obtain ⟨-, size, hm, -⟩ := h.li g hg
        have := hsys _ hm
        simp only at hb'
        unfold Apart at this
        simp only at this
        omega
      · rintro (e | ⟨n, e⟩) <;> cases e
      · intro e; cases e
    · subst hy
      exact J_plain h hx (lk_same hx h.lk) rfl rfl (by intro n h; cases h)
  -- full, R
  · refine J_lock h hx hy rfl (by intro n h; cases h) (fun r hr => ?_)
    simp only [step1, Option.some.injEq] at hr
    subst hr
    rfl
  -- full
  · refine J_lock h hx hy rfl (by intro n h; cases h) (fun r hr => ?_)
    simp only [phOk, Bool.or_eq_true, beq_iff_eq] at hpx
    rcases hpx with ((e | e) | e) | e
    · subst e
      simp only [step1, Option.some.injEq] at hr
      subst hr
      simp only [phOk]
      split <;> rfl
    · subst e
      simp only [step1, Option.some.injEq] at hr
      subst hr
      simp only [phOk]
      split <;> rfl
    · subst e; simp_all
    · subst e; simp_all
  -- upStore
  · simp only [Option.some.injEq] at hy
    subst hy
    refine J_writer h hx rfl rfl (by intro q r h; cases h) (by intro q r b h; cases h) rfl ?_ h.li h.lp h.cp h.ca (Nat.zero_mod _) ?_ ?_ ?_
    · intro g hg root hr hb
      exact absurd hb (h.us i _ _ hx g hg root hr)
    · intro q e; cases e
    · rintro (e | ⟨n, e⟩) <;> cases e
    · intro e
      obtain ⟨j, p, n, hj⟩ := h.nc e
      have hne : j ≠ i := by
        rintro rfl
        rw [hx] at hj
        cases hj
      have := (writer_alone h hx rfl hne hj).1
      cases this
  -- down
  · refine J_lock h hx hy rfl (by intro n h; cases h) (fun r hr => ?_)
    simp only [step1, Option.some.injEq] at hr
    subst hr
    rfl
  -- leave
  · refine J_lock h hx hy rfl (by intro n h; cases h) (fun r hr => ?_)
    simp only [step1, Option.some.injEq] at hr
    subst hr
    rfl
  -- fit
  · simp only [Option.map_eq_some_iff] at hy
    obtain ⟨q, hq, rfl⟩ := hy
    refine J_plain h hx ?_ ?_ rfl (by intro n h; cases h)
    · have := Verif.Sync.RWLock.step1_inv h.lk (get_map hx) hq
      rw [List.map_set]
      exact this
    · simp only [step1, Option.some.injEq] at hq
      subst hq
      rfl
  -- clrLock, W
  · split at hy
    · cases hy
    · next hne =>
      simp only [Option.some.injEq] at hy
      subst hy
      refine J_writer h hx rfl (by by_cases e : s.sh.chunks.length = 1 <;> simp [phOk, e])
        (by by_cases e : s.sh.chunks.length = 1 <;> simp [e]) (by by_cases e : s.sh.chunks.length = 1 <;> simp [e]) rfl ?_ ?_ List.Pairwise.nil h.cp h.ca (Nat.zero_mod _) ?_ (fun _ => rfl)
        (fun e => absurd e hne)
      · intro g hg; cases hg
      · intro g hg; cases hg
      · intro q _ g hg; cases hg
  -- clrLock
  · refine J_lock h hx hy rfl (by intro n h; cases h) (fun r hr => ?_)
    simp only [phOk, Bool.or_eq_true, beq_iff_eq] at hpx
    rcases hpx with (e | e) | e
    · subst e
      simp only [step1, Option.some.injEq] at hr
      subst hr
      simp only [phOk]
      split <;> rfl
    · subst e
      simp only [step1, Option.some.injEq] at hr
      subst hr
      simp only [phOk]
      split <;> rfl
    · subst e; simp_all
  -- clrFree
  · simp only [Option.some.injEq] at hy
    subst hy
    have hl := h.cf i _ _ hx (Or.inl rfl)
    refine J_writer h hx rfl rfl (by intro q r h; cases h) (by intro q r b h; cases h) rfl ?_ ?_ h.lp List.Pairwise.nil ?_ h.cur ?_
      (fun _ => hl) (fun _ => ⟨_, rfl⟩)
    · intro g hg root hr; cases hr
    · intro g hg
      simp only [hl] at hg
      cases hg
    · intro k hk; cases hk
    · intro q e; cases e
  -- clrAlloc
  · next base n =>
    simp only [Option.some.injEq] at hy
    subst hy
    have hl := h.cf i _ _ hx (Or.inr ⟨n, rfl⟩)
    obtain ⟨hb, hsys⟩ := hok base rfl _ rfl
    refine J_writer h hx rfl rfl (by intro q r h; cases h) (by intro q r b h; cases h) rfl ?_ ?_ h.lp ?_ ?_ h.cur ?_
      (fun _ => hl) (fun e => by cases e)
    · intro g hg
      simp only [hl] at hg
      cases hg
    · intro g hg
      simp only [hl] at hg
      cases hg
    · exact List.pairwise_cons.2 ⟨fun k hk => hsys k hk, h.cp⟩
    · intro k hk
      rcases List.mem_cons.1 hk with e | e
      · rw [e]; exact hb
      · exact h.ca k e
    · intro q e; cases e
  -- clrUnlock
  · refine J_lock h hx hy rfl (by intro n h; cases h) (fun r hr => ?_)
    simp only [step1, Option.some.injEq] at hr
    subst hr
    rfl
  · cases hy

theorem reach_J {c : Cfg} (hh : 0 < c.hdr) {n : Nat} (hn : n < 2 ^ 63) {s : St} (h : Reach c n s) : J c s.sh s.ags ∧ s.ags.length = n := by
  induction h with
  | @init base size hb =>
    have hget : ∀ (i : Nat) (p : PC) (ph : Ph), (List.replicate n ((PC.idle, Ph.out) : PC × Ph))[i]? = some (p, ph) → ph = .out := by
      intro i p ph h
      have := List.mem_of_getElem? h
      rw [List.mem_replicate] at this
      have := this.2
      cases this
      rfl
    refine ⟨⟨?_, ?_, ?_, ?_, ?_, ?_, List.Pairwise.nil, List.pairwise_singleton _ _, ?_, Nat.zero_mod _, ?_, ?_, ?_, ?_⟩, by simp⟩
    · have := Verif.Sync.RWLock.init_inv hn
      simpa [Verif.Sync.RWLock.init] using this
    · intro x hx
      rw [(List.mem_replicate.1 hx).2]
      rfl
    · intro i j p p' q r q' r' hij h1 h2
      cases hget _ _ _ h1
    · intro i p q r h1
      cases hget _ _ _ h1
    · intro g hg; cases hg
    · intro g hg; cases hg
    · intro k hk
      rw [List.mem_singleton.1 hk]
      exact hb
    · intro i p q r b h1
      cases hget _ _ _ h1
    · intro i p q h1
      cases hget _ _ _ h1
    · intro i p ph h1 h2
      rfl
    · intro e; cases e
  | @step s s' i a r h hs hok ih =>
    refine ⟨step_J hh ih.1 hs hok, ?_⟩
    rw [← ih.2]
    simp only [step, Option.bind_eq_some_iff, Option.map_eq_some_iff, Prod.mk.injEq] at hs
    obtain ⟨x, hx, y, hy, rfl, rfl⟩ := hs
    exact List.length_set

theorem hdr_pos {align : Nat} (ha : 0 < align) : 0 < (mkCfg align).hdr :=
  Nat.lt_of_lt_of_le (by decide) (Verif.Arith.C56_alignSize (sz := 16) ha).2.1

/-! ## C35 -/

/-- **C35**: in every interleaving of any number (below 2^63) of threads, the regions handed out since the last `Clear` do not overlap, each
lies in the payload of a chunk that has not been freed, chunks do not overlap, and addresses are aligned. -/
theorem C35_disjoint {align n : Nat} (ha : 0 < align) (hn : n < 2 ^ 63) {s : St} (h : Reach (mkCfg align) n s) :
    s.sh.live.Pairwise (fun g g' => Apart (g.addr (mkCfg align)) g.z (g'.addr (mkCfg align)) g'.z) ∧
    (∀ g ∈ s.sh.live, ∃ k ∈ s.sh.chunks, k.1 + (mkCfg align).hdr ≤ g.addr (mkCfg align) ∧
      g.addr (mkCfg align) + g.z ≤ k.1 + (mkCfg align).hdr + k.2) ∧
    s.sh.chunks.Pairwise (fun k k' => Apart k.1 ((mkCfg align).hdr + k.2) k'.1 ((mkCfg align).hdr + k'.2)) ∧
    ∀ g ∈ s.sh.live, g.addr (mkCfg align) % align = 0 := by
  obtain ⟨hj, -⟩ := reach_J (hdr_pos ha) hn h
  refine ⟨hj.lp, fun g hg => ?_, hj.cp, fun g hg => ?_⟩
  · obtain ⟨-, size, hm, hle⟩ := hj.li g hg
    exact ⟨_, hm, by simp only [Reg.addr]; omega, by simp only [Reg.addr]; omega⟩
  · obtain ⟨h1, size, hm, -⟩ := hj.li g hg
    have h2 := hj.ca _ hm
    exact add_mod0 (add_mod0 h2 (Nat.mul_mod_left _ _)) h1

/-- **C35**: what `Alloc` returns is the address of a recorded region at least as large as requested. -/
theorem C35_returns {align n : Nat} (ha : 0 < align) (hn : n < 2 ^ 63) {s s' : St} (h : Reach (mkCfg align) n s) {i : Nat} {a : Call} {p req : Nat}
    (hs : step (mkCfg align) i a s = some (s', some (p, req))) :
    ∃ g ∈ s'.sh.live, g.addr (mkCfg align) = p ∧ req ≤ g.z := by
  obtain ⟨hj, -⟩ := reach_J (hdr_pos ha) hn h
  simp only [step, Option.bind_eq_some_iff, Option.map_eq_some_iff, Prod.mk.injEq] at hs
  obtain ⟨x, hx, y, hy, rfl, hr⟩ := hs
  have hlock : ∀ {a pc ph sh} {y : (PC × Ph) × Sh × Option (Nat × Nat)}, lockStep a pc ph sh = some y → y.2.2 = none := by
    intro a pc ph sh y h
    simp only [lockStep, Option.map_eq_some_iff] at h
    obtain ⟨q, -, rfl⟩ := h
    rfl
  unfold stepA at hy
  split at hy <;> (try (simp only [Option.some.injEq] at hy; subst hy; cases hr)) <;> (try (rw [hlock hy] at hr; cases hr))
  · simp only [Option.bind_eq_some_iff] at hy
    obtain ⟨root, hr', hy⟩ := hy
    split at hy
    · rw [hlock hy] at hr; cases hr
    · simp only [Option.some.injEq] at hy
      subst hy
      cases hr
  · simp only [Option.map_eq_some_iff] at hy
    obtain ⟨root, hr', hy⟩ := hy
    split at hy <;> (subst hy; cases hr)
  · next base req' r b =>
    simp only [Option.map_eq_some_iff] at hy
    obtain ⟨q, hq, rfl⟩ := hy
    simp only [Option.some.injEq, Prod.mk.injEq] at hr
    obtain ⟨rfl, rfl⟩ := hr
    exact ⟨_, hj.fi i _ _ _ _ hx, rfl, (Verif.Arith.C56_alignSize (sz := req') ha).2.1⟩
  · split at hy
    · cases hy
    · simp only [Option.some.injEq] at hy
      subst hy
      cases hr
  · cases hy

/-- **C35**: no thread inside a call is ever stuck or uses a null root: it always has a next step, whatever address the system allocator
gives if asked. -/
theorem C35_no_ub {align n : Nat} (ha : 0 < align) (hn : n < 2 ^ 63) {s : St} (h : Reach (mkCfg align) n s) {i : Nat} {pc : PC} {ph : Ph}
    (hx : s.ags[i]? = some (pc, ph)) (hp : ph ≠ .out) (base : Nat) : ∃ s' r, step (mkCfg align) i (.go base) s = some (s', r) := by
  obtain ⟨hj, -⟩ := reach_J (hdr_pos ha) hn h
  have hok := hj.ok _ (List.mem_of_getElem? hx)
  have hroot : (∀ j, i ≠ j → ∀ p m, s.ags[j]? ≠ some (p, .clrAlloc m)) → (∀ m, ph ≠ .clrAlloc m) → ∃ k ks, s.sh.chunks = k :: ks := by
    intro h1 h2
    cases hc : s.sh.chunks with
    | cons k ks => exact ⟨k, ks, rfl⟩
    | nil =>
      obtain ⟨j, p, m, hjm⟩ := hj.nc hc
      by_cases hij : i = j
      · subst hij
        rw [hx] at hjm
        cases hjm
        exact absurd rfl (h2 m)
      · exact absurd hjm (h1 j hij p m)
  have hrd : holdsR pc = true ∨ holdsW pc = true → ∀ j, i ≠ j → ∀ p m, s.ags[j]? ≠ some (p, .clrAlloc m) := by
    intro hr j hij p m hjm
    have hpj := hj.ok _ (List.mem_of_getElem? hjm)
    simp only [phOk, beq_iff_eq] at hpj
    subst hpj
    have := excl hj.lk (Ne.symm hij) hjm hx rfl
    rcases hr with e | e
    · rw [this.1] at e; cases e
    · rw [this.2] at e; cases e
  suffices ∃ y, stepA (mkCfg align) (.go base) (pc, ph) s.sh = some y by
    obtain ⟨y, hy⟩ := this
    exact ⟨⟨y.2.1, s.ags.set i y.1⟩, y.2.2, by simp only [step, hx, Option.bind_some, hy, Option.map_some]⟩
  cases ph with
  | out => exact absurd rfl hp
  | enter req =>
    simp only [phOk, Bool.or_eq_true, beq_iff_eq] at hok
    rcases hok with (((e | e) | e) | e) | e <;> (subst e; exact ⟨_, rfl⟩)
  | got req r =>
    simp only [phOk, beq_iff_eq] at hok
    subst hok
    obtain ⟨k, ks, hk⟩ := hroot (hrd (Or.inl rfl)) (by intro m h; cases h)
    simp only [stepA, hk, List.head?_cons, Option.bind_some]
    split
    · exact ⟨_, rfl⟩
    · exact ⟨_, rfl⟩
  | fit req r b =>
    simp only [phOk, beq_iff_eq] at hok
    subst hok
    exact ⟨_, rfl⟩
  | full req rend =>
    simp only [phOk, Bool.or_eq_true, beq_iff_eq] at hok
    rcases hok with ((e | e) | e) | e
    · subst e; exact ⟨_, rfl⟩
    · subst e; exact ⟨_, rfl⟩
    · subst e
      obtain ⟨k, ks, hk⟩ := hroot (hrd (Or.inr rfl)) (by intro m h; cases h)
      simp only [stepA, hk, List.head?_cons, Option.map_some]
      exact ⟨_, rfl⟩
    · subst e; exact ⟨_, rfl⟩
  | upStore req =>
    simp only [phOk, beq_iff_eq] at hok
    subst hok
    exact ⟨_, rfl⟩
  | down req =>
    simp only [phOk, beq_iff_eq] at hok
    subst hok
    exact ⟨_, rfl⟩
  | leave req =>
    simp only [phOk, beq_iff_eq] at hok
    subst hok
    exact ⟨_, rfl⟩
  | clrLock =>
    simp only [phOk, Bool.or_eq_true, beq_iff_eq] at hok
    rcases hok with (e | e) | e
    · subst e; exact ⟨_, rfl⟩
    · subst e; exact ⟨_, rfl⟩
    · subst e
      obtain ⟨k, ks, hk⟩ := hroot (hrd (Or.inr rfl)) (by intro m h; cases h)
      simp only [stepA, hk, reduceCtorEq, if_false]
      exact ⟨_, rfl⟩
  | clrFree =>
    simp only [phOk, beq_iff_eq] at hok
    subst hok
    exact ⟨_, rfl⟩
  | clrAlloc m =>
    simp only [phOk, beq_iff_eq] at hok
    subst hok
    exact ⟨_, rfl⟩
  | clrUnlock =>
    simp only [phOk, beq_iff_eq] at hok
    subst hok
    exact ⟨_, rfl⟩

/-! ## The hypotheses are met -/

/-- A decidable form of `StepOk`. -/
def stepOkB (c : Cfg) (a : Call) (s s' : St) : Bool := match a, s'.sh.chunks with
  | .go base, k :: _ => decide (s'.sh.chunks.length = s.sh.chunks.length) ||
      (decide (base % c.align = 0) && s.sh.chunks.all fun q => decide (base + (c.hdr + k.2) ≤ q.1) || decide (q.1 + (c.hdr + q.2) ≤ base))
  | _, _ => true

theorem stepOkB_ok {c : Cfg} {a : Call} {s s' : St} (h : stepOkB c a s s' = true) : StepOk c a s s' := by
  intro base ha n hn
  subst ha
  unfold stepOkB at h
  rw [hn] at h
  simp only [List.length_cons, Bool.or_eq_true, decide_eq_true_eq, Bool.and_eq_true, List.all_eq_true] at h
  rcases h with h | h
  · omega
  · exact ⟨h.1, fun k hk => h.2 k hk⟩

/-- A schedule. -/
def runB (c : Cfg) : List (Nat × Call) → St → Option St
  | [], s => some s
  | e :: es, s => (step c e.1 e.2 s).bind fun r => if stepOkB c e.2 s r.1 then runB c es r.1 else none

theorem runB_reach {c : Cfg} {n : Nat} : ∀ (es : List (Nat × Call)) {s s' : St}, Reach c n s → runB c es s = some s' → Reach c n s' := by
  intro es
  induction es with
  | nil =>
    intro s s' h hr
    simp only [runB, Option.some.injEq] at hr
    exact hr ▸ h
  | cons e es ih =>
    intro s s' h hr
    simp only [runB, Option.bind_eq_some_iff] at hr
    obtain ⟨⟨s1, r⟩, h1, h2⟩ := hr
    split at h2
    · next ho => exact ih (Reach.step h h1 (stepOkB_ok ho)) h2
    · cases h2

/-- Two threads allocate at the same time; the chunk is full for the second, which gets a new one at address 1000. -/
example : ∃ s, Reach (mkCfg 8) 2 s ∧ s.sh.live = [⟨1000, 0, 40⟩, ⟨0, 0, 32⟩] := by
  have h : (runB (mkCfg 8) [(0, .alloc 30), (1, .alloc 40), (0, .go 0), (1, .go 0), (0, .go 0), (1, .go 0), (0, .go 0), (1, .go 0), (0, .go 0),
      (1, .go 0), (1, .go 0), (0, .go 0), (1, .go 0), (1, .go 1000), (1, .go 0), (1, .go 0), (1, .go 0), (1, .go 0), (1, .go 0), (1, .go 0),
      (1, .go 0)] ⟨⟨0, 0, [(0, 64)], []⟩, List.replicate 2 (.idle, .out)⟩).map (·.sh.live) = some [⟨1000, 0, 40⟩, ⟨0, 0, 32⟩] := by
    decide +kernel
  rw [Option.map_eq_some_iff] at h
  obtain ⟨s, h1, h2⟩ := h
  exact ⟨s, runB_reach _ (Reach.init rfl) h1, h2⟩

end Verif.Alloc.Greedy
