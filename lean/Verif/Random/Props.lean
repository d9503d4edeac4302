import Verif.Random.Model
import Mathlib.Data.Fintype.EquivFin
import Mathlib.Data.List.Basic

/-!
# Generators do not degenerate (C62), and shuffling is uniform (C63)
-/

namespace Verif.Random

/-! ## Words -/

theorem xor_shr_injective {k : Nat} (hk : 0 < k) : Function.Injective fun x : W => x ^^^ (x >>> k) := by
  intro x y h
  dsimp only at h
  have hd : (x ^^^ y) = (x ^^^ y) >>> k := by
    have h1 : x ^^^ y ^^^ ((x ^^^ y) >>> k) = 0#64 := by
      rw [BitVec.ushiftRight_xor_distrib]
      have : x ^^^ y ^^^ (x >>> k ^^^ y >>> k) = (x ^^^ x >>> k) ^^^ (y ^^^ y >>> k) := by ac_rfl
      rw [this, h, BitVec.xor_self]
    exact BitVec.xor_eq_zero_iff.1 h1
  have h0 : x ^^^ y = 0#64 := by
    generalize x ^^^ y = d at hd
    have h2 := congrArg BitVec.toNat hd
    rw [BitVec.toNat_ushiftRight, Nat.shiftRight_eq_div_pow] at h2
    refine BitVec.eq_of_toNat_eq ?_
    refine Decidable.byContradiction fun hne => ?_
    have : 0 < d.toNat := Nat.pos_of_ne_zero hne
    have := Nat.div_lt_self this (Nat.one_lt_two_pow (by omega : k ≠ 0))
    omega
  exact BitVec.xor_eq_zero_iff.1 h0

theorem xor_shl_injective {k : Nat} (hk : 0 < k) : Function.Injective fun x : W => x ^^^ (x <<< k) := by
  intro x y h
  dsimp only at h
  have hd : (x ^^^ y) = (x ^^^ y) <<< k := by
    have h1 : x ^^^ y ^^^ ((x ^^^ y) <<< k) = 0#64 := by
      rw [BitVec.shiftLeft_xor_distrib]
      have : x ^^^ y ^^^ (x <<< k ^^^ y <<< k) = (x ^^^ x <<< k) ^^^ (y ^^^ y <<< k) := by ac_rfl
      rw [this, h, BitVec.xor_self]
    exact BitVec.xor_eq_zero_iff.1 h1
  have h0 : x ^^^ y = 0#64 := by
    generalize x ^^^ y = d at hd
    have h2 : ∀ i, d.getLsbD i = false := by
      intro i
      induction i using Nat.strongRecOn with
      | ind i ih =>
        rw [hd, BitVec.getLsbD_shiftLeft]
        by_cases hik : i < k
        · simp [hik]
        · rw [ih (i - k) (by omega), Bool.and_false]
    exact BitVec.eq_of_getLsbD_eq fun i _ => by simp [h2 i]
  exact BitVec.xor_eq_zero_iff.1 h0

instance : Finite W := Finite.of_injective BitVec.toFin fun _ _ h => BitVec.toFin_inj.1 h

theorem mul_zero_iff {c d : W} (h : c * d = 1#64) (x : W) : x * c = 0#64 ↔ x = 0#64 := by
  constructor
  · intro hx
    have := congrArg (· * d) hx
    simp only [BitVec.mul_assoc, h, BitVec.mul_one, BitVec.zero_mul] at this
    exact this
  · rintro rfl
    exact BitVec.zero_mul

/-! ## The 64-bit generator -/

theorem state64_injective : Function.Injective fun x => (xorshift64star x).2 := by
  intro x y h
  exact xor_shr_injective (by decide : 0 < 12) (xor_shl_injective (by decide : 0 < 25) (xor_shr_injective (by decide : 0 < 27) h))

theorem state64_zero (x : W) : (xorshift64star x).2 = 0#64 ↔ x = 0#64 := by
  constructor
  · intro h
    exact state64_injective (show (xorshift64star x).2 = (xorshift64star 0#64).2 from h.trans (by decide))
  · rintro rfl
    decide

theorem out64_zero (x : W) : (xorshift64star x).1 = 0#64 ↔ x = 0#64 :=
  (mul_zero_iff (d := 6415128727920758069#64) (by decide) _).trans (state64_zero x)

/-- **C62**, 64-bit generator: the state transition is a bijection; from a non-zero state neither the state nor a draw is ever zero; distinct states give distinct draws. -/
theorem C62_xorshift64 :
    Function.Bijective (fun x => (xorshift64star x).2) ∧ Function.Injective (fun x => (xorshift64star x).1) ∧
    ∀ (n : Nat) (x : W), x ≠ 0#64 → draw64 n x ≠ 0#64 ∧ (xorshift64star (draw64 n x)).1 ≠ 0#64 := by
  refine ⟨⟨state64_injective, Finite.surjective_of_injective state64_injective⟩, ?_, ?_⟩
  · intro x y h
    refine state64_injective ?_
    have := congrArg (· * 6415128727920758069#64) h
    simp only [xorshift64star, BitVec.mul_assoc] at this
    rw [show 2685821657736338717#64 * 6415128727920758069#64 = 1#64 by decide, BitVec.mul_one, BitVec.mul_one] at this
    exact this
  · intro n
    induction n with
    | zero => intro x hx; exact ⟨hx, fun h => hx ((out64_zero x).1 h)⟩
    | succ n ih => intro x hx; exact ih _ fun h => hx ((state64_zero x).1 h)

/-! ## The 1024-bit generator -/

/-- A state: 16 words and an index below 16. -/
def Valid (x : List W) : Prop := x.length = 17 ∧ ∃ p : Nat, p < 16 ∧ x[16]? = some (BitVec.ofNat 64 p)

/-- Not all of the 16 words are zero. -/
def NonZero (x : List W) : Prop := ∃ i, i < 16 ∧ ∃ w : W, x[i]? = some w ∧ w ≠ 0#64

/-- What happens to the two words. -/
def f (b : W) : W := (b ^^^ (b <<< 31)) ^^^ ((b ^^^ (b <<< 31)) >>> 11)
def g (a : W) : W := a ^^^ (a >>> 30)

theorem f_injective : Function.Injective f := fun _ _ h => xor_shl_injective (by decide : 0 < 31) (xor_shr_injective (by decide : 0 < 11) h)
theorem f_surjective : Function.Surjective f := Finite.surjective_of_injective f_injective

theorem next_index : ∀ p : Nat, p < 16 → (BitVec.ofNat 64 p + 1#64) &&& 15#64 = BitVec.ofNat 64 ((p + 1) % 16) := by decide

theorem toNat_small {p : Nat} (h : p < 16) : (BitVec.ofNat 64 p).toNat = p := by
  rw [BitVec.toNat_ofNat]
  exact Nat.mod_eq_of_lt (by omega)

theorem small_inj {p q : Nat} (hp : p < 16) (hq : q < 16) (h : BitVec.ofNat 64 p = BitVec.ofNat 64 q) : p = q := by
  have := congrArg BitVec.toNat h
  rwa [toNat_small hp, toNat_small hq] at this

theorem step_eq {x : List W} {p : Nat} {a b : W} (hl : x.length = 17) (hp : p < 16) (h16 : x[16]? = some (BitVec.ofNat 64 p))
    (ha : x[p]? = some a) (hb : x[(p + 1) % 16]? = some b) :
    xorshift1024star x = some ((g a ^^^ f b) * 1181783497276652981#64, (x.set 16 (BitVec.ofNat 64 ((p + 1) % 16))).set ((p + 1) % 16) (g a ^^^ f b)) := by
  have hq : (p + 1) % 16 < 16 := Nat.mod_lt _ (by decide)
  have hb' : (x.set 16 (BitVec.ofNat 64 ((p + 1) % 16)))[(p + 1) % 16]? = some b := by
    rw [List.getElem?_set_ne (by omega)]
    exact hb
  simp only [xorshift1024star, rd, wr, h16, Option.bind_eq_bind, Option.bind_some, next_index p hp, toNat_small hp, toNat_small hq, ha, hl,
    show 16 < 17 by decide, if_true, hb', List.length_set, show (p + 1) % 16 < 17 by omega]
  rfl

theorem valid_parts {x : List W} (h : Valid x) : ∃ p a b, p < 16 ∧ x[16]? = some (BitVec.ofNat 64 p) ∧ x[p]? = some a ∧ x[(p + 1) % 16]? = some b := by
  obtain ⟨hl, p, hp, h16⟩ := h
  have hq : (p + 1) % 16 < 16 := Nat.mod_lt _ (by decide)
  exact ⟨p, _, _, hp, h16, List.getElem?_eq_getElem (by omega), List.getElem?_eq_getElem (by omega)⟩

theorem step_valid {x : List W} (h : Valid x) : ∃ r, xorshift1024star x = some r ∧ Valid r.2 ∧ (NonZero x → NonZero r.2) := by
  obtain ⟨p, a, b, hp, h16, ha, hb⟩ := valid_parts h
  have hl := h.1
  have hq : (p + 1) % 16 < 16 := Nat.mod_lt _ (by decide)
  have hpq : p ≠ (p + 1) % 16 := by omega
  refine ⟨_, step_eq hl hp h16 ha hb, ⟨by simp [hl], (p + 1) % 16, hq, ?_⟩, ?_⟩
  · dsimp only
    rw [List.getElem?_set_ne (by omega), List.getElem?_set_self (by omega)]
  · rintro ⟨i, hi, w, hw, hne⟩
    dsimp only
    by_cases hiq : i = (p + 1) % 16
    · by_cases ha0 : a = 0#64
      · refine ⟨_, hq, g a ^^^ f b, List.getElem?_set_self (by simp [hl]; omega), ?_⟩
        subst ha0
        rw [show g 0#64 = 0#64 by decide, BitVec.zero_xor]
        intro h0
        have : b = 0#64 := f_injective (h0.trans (by decide : 0#64 = f 0#64))
        subst hiq
        rw [hb] at hw
        cases hw
        exact hne this
      · refine ⟨p, hp, a, ?_, ha0⟩
        rw [List.getElem?_set_ne (Ne.symm hpq), List.getElem?_set_ne (by omega)]
        exact ha
    · refine ⟨i, hi, w, ?_, hne⟩
      rw [List.getElem?_set_ne (Ne.symm hiq), List.getElem?_set_ne (by omega)]
      exact hw

theorem step_injective {x y : List W} {r s : W × List W} (hx : Valid x) (hy : Valid y) (hr : xorshift1024star x = some r) (hs : xorshift1024star y = some s)
    (h : r.2 = s.2) : x = y := by
  obtain ⟨p, a, b, hp, h16, ha, hb⟩ := valid_parts hx
  obtain ⟨p', a', b', hp', h16', ha', hb'⟩ := valid_parts hy
  rw [step_eq hx.1 hp h16 ha hb] at hr
  rw [step_eq hy.1 hp' h16' ha' hb'] at hs
  cases hr
  cases hs
  dsimp only at h
  have hlx := hx.1
  have hly := hy.1
  have hq : (p + 1) % 16 < 16 := Nat.mod_lt _ (by decide)
  have hq' : (p' + 1) % 16 < 16 := Nat.mod_lt _ (by decide)
  have e16 := congrArg (fun l : List W => l[16]?) h
  rw [List.getElem?_set_ne (by omega), List.getElem?_set_self (by omega), List.getElem?_set_ne (by omega), List.getElem?_set_self (by omega)] at e16
  have hpp : p = p' := by
    have := small_inj hq hq' (Option.some.inj e16)
    omega
  subst hpp
  have hne : p ≠ (p + 1) % 16 := by omega
  have ea := congrArg (fun l : List W => l[p]?) h
  rw [List.getElem?_set_ne (Ne.symm hne), List.getElem?_set_ne (by omega), List.getElem?_set_ne (Ne.symm hne), List.getElem?_set_ne (by omega), ha, ha'] at ea
  cases ea
  have eb := congrArg (fun l : List W => l[(p + 1) % 16]?) h
  rw [List.getElem?_set_self (by simp [hlx]; omega), List.getElem?_set_self (by simp [hly]; omega)] at eb
  have hbb : b = b' := by
    refine f_injective ?_
    have := congrArg (g a ^^^ ·) (Option.some.inj eb)
    simpa only [← BitVec.xor_assoc, BitVec.xor_self, BitVec.zero_xor] using this
  subst hbb
  refine List.ext_getElem? fun i => ?_
  by_cases h1 : i = 16
  · subst h1
    rw [h16, h16']
  · by_cases h2 : i = (p + 1) % 16
    · subst h2
      rw [hb, hb']
    · have := congrArg (fun l : List W => l[i]?) h
      rwa [List.getElem?_set_ne (Ne.symm h2), List.getElem?_set_ne (Ne.symm h1), List.getElem?_set_ne (Ne.symm h2), List.getElem?_set_ne (Ne.symm h1)] at this

theorem step_surjective {y : List W} (hy : Valid y) : ∃ x r, Valid x ∧ xorshift1024star x = some r ∧ r.2 = y := by
  obtain ⟨hl, q, hq, h16⟩ := hy
  have hp : (q + 15) % 16 < 16 := Nat.mod_lt _ (by decide)
  have hpq : ((q + 15) % 16 + 1) % 16 = q := by omega
  have hne : (q + 15) % 16 ≠ q := by omega
  generalize hpe : (q + 15) % 16 = p at hp hpq hne
  obtain ⟨a, ha⟩ : ∃ a, y[p]? = some a := ⟨_, List.getElem?_eq_getElem (by omega)⟩
  obtain ⟨c, hc⟩ : ∃ c, y[q]? = some c := ⟨_, List.getElem?_eq_getElem (by omega)⟩
  obtain ⟨b, hb⟩ := f_surjective (g a ^^^ c)
  have e1 : ((y.set 16 (BitVec.ofNat 64 p)).set q b)[16]? = some (BitVec.ofNat 64 p) := by
    rw [List.getElem?_set_ne (by omega), List.getElem?_set_self (by omega)]
  have e2 : ((y.set 16 (BitVec.ofNat 64 p)).set q b)[p]? = some a := by
    rw [List.getElem?_set_ne (Ne.symm hne), List.getElem?_set_ne (by omega), ha]
  have e3 : ((y.set 16 (BitVec.ofNat 64 p)).set q b)[(p + 1) % 16]? = some b := by
    rw [hpq, List.getElem?_set_self (by simp [hl]; omega)]
  refine ⟨(y.set 16 (BitVec.ofNat 64 p)).set q b, _, ⟨by simp [hl], p, hp, e1⟩, step_eq (by simp [hl]) hp e1 e2 e3, ?_⟩
  dsimp only
  rw [hpq, hb, ← BitVec.xor_assoc, BitVec.xor_self, BitVec.zero_xor]
  refine List.ext_getElem? fun i => ?_
  by_cases h1 : i = q
  · subst h1
    rw [List.getElem?_set_self (by simp [hl]; omega), hc]
  · rw [List.getElem?_set_ne (Ne.symm h1)]
    by_cases h2 : i = 16
    · subst h2
      rw [List.getElem?_set_self (by simp [hl]), h16]
    · rw [List.getElem?_set_ne (Ne.symm h2), List.getElem?_set_ne (Ne.symm h1), List.getElem?_set_ne (Ne.symm h2)]

/-- **C62**, 1024-bit generator: every state (16 words, index below 16) has exactly one predecessor and one successor among the states; any number of draws
succeeds without leaving the array, keeps the index below 16, and never leads from a non-zero state to the all-zero one. -/
theorem C62_xorshift1024 :
    (∀ y, Valid y → ∃ x, (Valid x ∧ ∃ w, xorshift1024star x = some (w, y)) ∧ ∀ x', (Valid x' ∧ ∃ w, xorshift1024star x' = some (w, y)) → x' = x) ∧
    ∀ (n : Nat) (x : List W), Valid x → ∃ y, draw n x = some y ∧ Valid y ∧ (NonZero x → NonZero y) := by
  constructor
  · intro y hy
    obtain ⟨x, r, hx, hr, rfl⟩ := step_surjective hy
    exact ⟨x, ⟨hx, r.1, hr⟩, fun x' ⟨hx', w, hw⟩ => step_injective hx' hx hw hr rfl⟩
  · intro n
    induction n with
    | zero => intro x hx; exact ⟨x, rfl, hx, id⟩
    | succ n ih =>
      intro x hx
      obtain ⟨r, hr, h1, h2⟩ := step_valid hx
      obtain ⟨y, hy, h3, h4⟩ := ih r.2 h1
      exact ⟨y, by rw [draw, hr]; exact hy, h3, fun h => h4 (h2 h)⟩

theorem draws64_length : ∀ (n : Nat) (x : W), (draws64 n x).length = n := by
  intro n
  induction n with
  | zero => intro x; rfl
  | succ n ih => intro x; simp [draws64, ih]

/-- Seeding with any number gives a state, and a non-zero one if the number is not zero; so no number of draws after it gives the all-zero state. -/
theorem C62_seed (s : W) : Valid (seed1024 s) ∧ (s ≠ 0#64 → NonZero (seed1024 s)) := by
  have hlen := draws64_length 16 (xorshift64star s).2
  refine ⟨⟨by simp [seed1024, hlen], 0, by decide, ?_⟩, fun hs => ⟨0, by decide, _, rfl, ?_⟩⟩
  · rw [seed1024, List.getElem?_append_right (by omega), hlen]
    rfl
  · exact fun h => hs ((state64_zero s).1 ((out64_zero _).1 h))

/-- The exception: a seed of zero gives the all-zero state (as does `XorshiftRand` that is never seeded), from which every draw is zero. -/
theorem C62_seed_zero_counterexample : seed1024 0#64 = List.replicate 17 0#64 ∧ ∀ n, ∃ y, draw n (seed1024 0#64) = some y ∧ ¬ NonZero y := by
  have h0 : seed1024 0#64 = List.replicate 17 0#64 := by decide
  refine ⟨h0, fun n => ?_⟩
  obtain ⟨y, hy, hv, _⟩ := C62_xorshift1024.2 n _ (C62_seed 0#64).1
  refine ⟨y, hy, ?_⟩
  rw [h0] at hy
  have key : ∀ (n : Nat) (x y : List W), Valid x → ¬ NonZero x → draw n x = some y → ¬ NonZero y := by
    intro n
    induction n with
    | zero => intro x y _ hx h; cases h; exact hx
    | succ n ih =>
      intro x y hv hx h
      obtain ⟨r, hr, h⟩ := Option.bind_eq_some_iff.1 h
      obtain ⟨r', hr', hv', _⟩ := step_valid hv
      rw [hr] at hr'
      cases hr'
      refine ih r.2 y hv' ?_ h
      obtain ⟨p, a, b, hp, h16, ha, hb⟩ := valid_parts hv
      have hl := hv.1
      have hq : (p + 1) % 16 < 16 := Nat.mod_lt _ (by decide)
      rw [step_eq hl hp h16 ha hb] at hr
      cases hr
      have z : ∀ (i : Nat) (w : W), i < 16 → x[i]? = some w → w = 0#64 := fun i w hi hw =>
        Decidable.byContradiction fun hne => hx ⟨i, hi, w, hw, hne⟩
      rintro ⟨i, hi, w, hw, hne⟩
      dsimp only at hw
      by_cases h1 : i = (p + 1) % 16
      · subst h1
        rw [List.getElem?_set_self (by simp [hl]; omega)] at hw
        cases hw
        rw [z p a hp ha, z _ b hq hb] at hne
        exact hne (by decide)
      · rw [List.getElem?_set_ne (Ne.symm h1), List.getElem?_set_ne (by omega)] at hw
        exact hne (z i w hi hw)
  refine key n _ y ⟨by decide, 0, by decide, by decide⟩ ?_ hy
  rintro ⟨i, hi, w, hw, hne⟩
  rw [List.getElem?_replicate] at hw
  split at hw
  · cases hw; exact hne rfl
  · cases hw

/-- The hypotheses can be met, and the draws are not trivial. -/
example : Valid (seed1024 1#64) ∧ NonZero (seed1024 1#64) := ⟨(C62_seed 1#64).1, (C62_seed 1#64).2 (by decide)⟩
example : (xorshift64star 1#64).2 = 33554433#64 := by decide

/-! ## Shuffling -/

/-- The draws `bssrand(0, n), bssrand(0, n-1), ..., bssrand(0, 1)`, each in its range. -/
def InRange : Nat → List Nat → Prop
  | 0, ds => ds = []
  | n + 1, ds => ∃ d r, ds = d :: r ∧ d ≤ n ∧ InRange n r

theorem swap_spec {α : Type _} {p : List α} {i d : Nat} (hi : i < p.length) (hd : d < p.length) :
    ∃ q, swap p i d = some q ∧ q.Perm p ∧ q.length = p.length ∧ q[i]? = p[d]? ∧ ∀ j, j ≠ i → j ≠ d → q[j]? = p[j]? := by
  have e : swap p i d = some ((p.set i p[d]).set d p[i]) := by
    simp only [swap, rd, wr, List.getElem?_eq_getElem hi, List.getElem?_eq_getElem hd, Option.bind_eq_bind, Option.bind_some, hi, if_true, List.length_set, hd]
  refine ⟨_, e, List.set_set_perm hi hd, by simp, ?_, ?_⟩
  · by_cases h : d = i
    · subst h
      rw [List.getElem?_set_self (by simpa using hd), List.getElem?_eq_getElem hd]
    · rw [List.getElem?_set_ne h, List.getElem?_set_self hi, List.getElem?_eq_getElem hd]
  · intro j h1 h2
    rw [List.getElem?_set_ne (Ne.symm h2), List.getElem?_set_ne (Ne.symm h1)]

theorem shuffleFrom_spec {α : Type _} : ∀ (n : Nat) (p : List α) (ds : List Nat), n ≤ p.length → InRange n ds →
    ∃ q, shuffleFrom n p ds = some q ∧ q.Perm p ∧ q.length = p.length ∧ ∀ j, n ≤ j → q[j]? = p[j]? := by
  intro n
  induction n with
  | zero => intro p ds _ _; exact ⟨p, by simp [shuffleFrom], .refl _, rfl, fun _ _ => rfl⟩
  | succ n ih =>
    rintro p ds hn ⟨d, r, rfl, hd, hr⟩
    obtain ⟨q, hq, h1, h2, h3, h4⟩ := swap_spec (p := p) (i := n) (d := d) (by omega) (by omega)
    obtain ⟨s, hs, h5, h6, h7⟩ := ih q r (by omega) hr
    refine ⟨s, by rw [shuffleFrom, hq]; exact hs, h5.trans h1, by omega, fun j hj => ?_⟩
    rw [h7 j (by omega), h4 j (by omega) (by omega)]

theorem shuffleFrom_inj {α : Type _} : ∀ (n : Nat) (p q : List α) (ds es : List Nat), n ≤ p.length → p.Nodup → InRange n ds → InRange n es →
    shuffleFrom n p ds = some q → shuffleFrom n p es = some q → ds = es := by
  intro n
  induction n with
  | zero => intro p q ds es _ _ h1 h2 _ _; exact Eq.trans h1 (Eq.symm h2)
  | succ n ih =>
    rintro p q ds es hn hnd ⟨d, r, rfl, hd, hr⟩ ⟨e, s, rfl, he, hs⟩ h1 h2
    obtain ⟨u, hu, p1, l1, a1, _⟩ := swap_spec (p := p) (i := n) (d := d) (by omega) (by omega)
    obtain ⟨v, hv, p2, l2, a2, _⟩ := swap_spec (p := p) (i := n) (d := e) (by omega) (by omega)
    rw [shuffleFrom, hu] at h1
    rw [shuffleFrom, hv] at h2
    obtain ⟨q1, hq1, _, _, k1⟩ := shuffleFrom_spec n u r (by omega) hr
    obtain ⟨q2, hq2, _, _, k2⟩ := shuffleFrom_spec n v s (by omega) hs
    simp only [Option.bind_some] at h1 h2
    rw [h1] at hq1
    rw [h2] at hq2
    cases hq1
    cases hq2
    have hde : p[d]? = p[e]? := by rw [← a1, ← a2, ← k1 n (Nat.le_refl _), ← k2 n (Nat.le_refl _)]
    have : d = e := by
      rw [List.getElem?_eq_getElem (by omega), List.getElem?_eq_getElem (by omega)] at hde
      exact (List.Nodup.getElem_inj_iff hnd).1 (Option.some.inj hde)
    subst this
    rw [hu] at hv
    cases hv
    rw [ih u q r s (by omega) (p1.nodup_iff.2 hnd) hr hs h1 h2]

theorem shuffleFrom_surj {α : Type _} : ∀ (n : Nat) (p q : List α), n ≤ p.length → q.Perm p → (∀ j, n ≤ j → q[j]? = p[j]?) →
    ∃ ds, InRange n ds ∧ shuffleFrom n p ds = some q := by
  intro n
  induction n with
  | zero =>
    intro p q _ _ h
    exact ⟨[], rfl, by rw [shuffleFrom, List.ext_getElem? fun j => (h j (Nat.zero_le _)).symm]⟩
  | succ n ih =>
    intro p q hn hperm h
    have hlen := hperm.length_eq
    have hdrop : q.drop (n + 1) = p.drop (n + 1) := by
      refine List.ext_getElem? fun j => ?_
      rw [List.getElem?_drop, List.getElem?_drop]
      exact h _ (by omega)
    have htake : (q.take (n + 1)).Perm (p.take (n + 1)) := by
      have := hperm
      rw [← List.take_append_drop (n + 1) q, ← List.take_append_drop (n + 1) p, hdrop] at this
      exact (List.perm_append_right_iff _).1 this
    have hmem : q[n]'(by omega) ∈ p.take (n + 1) := by
      refine htake.mem_iff.1 (List.mem_iff_getElem?.2 ⟨n, ?_⟩)
      rw [List.getElem?_take_of_lt (by omega), List.getElem?_eq_getElem]
    obtain ⟨d, hd⟩ := List.mem_iff_getElem?.1 hmem
    have hdn : d < n + 1 := by
      refine Decidable.byContradiction fun hc => ?_
      rw [List.getElem?_eq_none (by simp; omega)] at hd
      cases hd
    rw [List.getElem?_take_of_lt hdn] at hd
    obtain ⟨u, hu, p1, l1, a1, b1⟩ := swap_spec (p := p) (i := n) (d := d) (by omega) (by omega)
    obtain ⟨ds, h1, h2⟩ := ih u q (by omega) (hperm.trans p1.symm) (fun j hj => by
      by_cases hjn : j = n
      · subst hjn
        rw [a1, hd, List.getElem?_eq_getElem]
      · rw [b1 j hjn (by omega)]
        exact h j (by omega))
    exact ⟨d :: ds, ⟨d, ds, rfl, by omega, h1⟩, by rw [shuffleFrom, hu]; exact h2⟩

/-- **C63**: with any draws in their ranges the shuffle stays within the array and yields a permutation of its input. -/
theorem C63_permutation {α : Type _} (p : List α) (ds : List Nat) (h : InRange p.length ds) : ∃ q, shuffle p ds = some q ∧ q.Perm p := by
  obtain ⟨q, h1, h2, _⟩ := shuffleFrom_spec p.length p ds (Nat.le_refl _) h
  exact ⟨q, h1, h2⟩

/-- **C63**: every permutation of an array is the result of some sequence of draws in range, and if the elements are distinct, of exactly one. -/
theorem C63_exactly_once {α : Type _} (p q : List α) (h : q.Perm p) :
    (∃ ds, InRange p.length ds ∧ shuffle p ds = some q) ∧
    (p.Nodup → ∀ ds es, InRange p.length ds → InRange p.length es → shuffle p ds = some q → shuffle p es = some q → ds = es) := by
  refine ⟨shuffleFrom_surj p.length p q (Nat.le_refl _) h fun j hj => ?_, fun hn ds es => shuffleFrom_inj p.length p q ds es (Nat.le_refl _) hn⟩
  rw [List.getElem?_eq_none hj, List.getElem?_eq_none (by rw [h.length_eq]; exact hj)]

/-- A shuffle of four elements. -/
example : InRange 4 [0, 2, 0, 0] ∧ shuffle [10, 20, 30, 40] [0, 2, 0, 0] = some [20, 40, 30, 10] := by
  refine ⟨⟨0, _, rfl, by decide, 2, _, rfl, by decide, 0, _, rfl, by decide, 0, _, rfl, by decide, rfl⟩, by decide⟩

end Verif.Random
