import Mathlib.Algebra.Order.Field.Basic
import Mathlib.Algebra.BigOperators.Group.List.Basic
import Mathlib.Algebra.Order.Field.Rat
import Mathlib.Data.List.Pairwise
import Mathlib.Tactic.Linarith
import Mathlib.Tactic.Ring
import Mathlib.Tactic.NormNum

/-!
# `StochasticSubdivider` (C85)

`/repo/include/bss-util/algo.h:214-235`, in exact arithmetic. The random numbers and the callbacks `f1`, `f3` may depend on anything, also on earlier calls: they are functions of a
state of an arbitrary type that is threaded through the calls in the order in which the code makes them. The recursion need not end; `fuel` bounds its depth and `none` means that it
went deeper.
-/

namespace Verif.Spatial

variable {K : Type} [Field K] [LinearOrder K] [IsStrictOrderedRing K] {S : Type}

/-- `rect[0..3]`. -/
structure Rect (K : Type) where
  x0 : K
  y0 : K
  x1 : K
  y1 : K
deriving DecidableEq

/-- `lerp`, `bss_util.h:1002-1006`. -/
def lerp (a b t : K) : K := (1 - t) * a + t * b

/-- `StochasticSubdivider`: the rectangles given to `f2`, in order. `stop` is the test `bssRandReal(0, 1.0) < f1(depth, rect)`, `frac` the call of `f3`. -/
def subdivide (stop : S → Nat → Rect K → Bool × S) (frac : S → Nat → Rect K → K × S) : Nat → S → Nat → Rect K → Option (List (Rect K) × S)
  | 0, _, _, _ => none
  | fuel + 1, s, depth, rect =>
    let (b, s) := stop s depth rect
    if b then some ([rect], s)
    else
      let (f, s) := frac s depth rect
      -- `axis = depth % 2`; `r1[axis] = div`, `r2[2 + axis] = div`
      let div := if depth % 2 = 0 then lerp rect.x0 rect.x1 f else lerp rect.y0 rect.y1 f
      let r1 := if depth % 2 = 0 then { rect with x0 := div } else { rect with y0 := div }
      let r2 := if depth % 2 = 0 then { rect with x1 := div } else { rect with y1 := div }
      match subdivide stop frac fuel s (depth + 1) r1 with
      | none => none
      | some (l1, s) =>
        match subdivide stop frac fuel s (depth + 1) r2 with
        | none => none
        | some (l2, s) => some (l1 ++ l2, s)

/-! ## Specification -/

/-- The corners are in order. -/
def Rect.Ok (r : Rect K) : Prop := r.x0 ≤ r.x1 ∧ r.y0 ≤ r.y1

/-- The point is in the rectangle. -/
def Rect.Has (r : Rect K) (x y : K) : Prop := r.x0 ≤ x ∧ x ≤ r.x1 ∧ r.y0 ≤ y ∧ y ≤ r.y1

/-- The point is in the rectangle, off the edges. -/
def Rect.Inside (r : Rect K) (x y : K) : Prop := r.x0 < x ∧ x < r.x1 ∧ r.y0 < y ∧ y < r.y1

def Rect.area (r : Rect K) : K := (r.x1 - r.x0) * (r.y1 - r.y0)

/-- The list tiles the rectangle: proper rectangles that cover it and nothing else, meet only in their edges, and have together its area. -/
structure Tiles (r : Rect K) (l : List (Rect K)) : Prop where
  ok : ∀ q ∈ l, q.Ok
  cover : ∀ x y, (∃ q ∈ l, q.Has x y) ↔ r.Has x y
  apart : l.Pairwise fun p q => ∀ x y, p.Inside x y → ¬q.Has x y
  area : (l.map Rect.area).sum = r.area

/-! ## Proofs -/

theorem lerp_mem {a b t : K} (h : a ≤ b) (h0 : 0 ≤ t) (h1 : t ≤ 1) : a ≤ lerp a b t ∧ lerp a b t ≤ b := by
  have e1 : lerp a b t = a + t * (b - a) := by rw [lerp]; ring
  have e2 : lerp a b t = b - (1 - t) * (b - a) := by rw [lerp]; ring
  have p1 := mul_nonneg h0 (sub_nonneg.2 h)
  have p2 := mul_nonneg (sub_nonneg.2 h1) (sub_nonneg.2 h)
  exact ⟨by rw [e1]; linarith, by rw [e2]; linarith⟩

theorem tiles_self {r : Rect K} (h : r.Ok) : Tiles r [r] :=
  ⟨fun q hq => by simp only [List.mem_singleton] at hq; exact hq ▸ h, fun x y => by simp, List.pairwise_singleton _ _, by simp⟩

/-- Putting together the tilings of the two parts. -/
theorem tiles_join {r r1 r2 : Rect K} {l1 l2 : List (Rect K)} (t1 : Tiles r1 l1) (t2 : Tiles r2 l2) (hc : ∀ x y, r1.Has x y ∨ r2.Has x y ↔ r.Has x y)
    (ha : r1.area + r2.area = r.area) (hd : ∀ p ∈ l1, ∀ x y, p.Inside x y → r1.Inside x y) (h12 : ∀ x y, r1.Inside x y → ¬r2.Has x y) : Tiles r (l1 ++ l2) := by
  refine ⟨fun q hq => (List.mem_append.1 hq).elim (t1.ok q) (t2.ok q), fun x y => ?_, ?_, ?_⟩
  · rw [← hc, ← t1.cover, ← t2.cover]
    simp only [List.mem_append, or_and_right, exists_or]
  · refine List.pairwise_append.2 ⟨t1.apart, t2.apart, fun p hp q hq x y hi hh => ?_⟩
    exact h12 x y (hd p hp x y hi) ((t2.cover x y).1 ⟨q, hq, hh⟩)
  · rw [List.map_append, List.sum_append, t1.area, t2.area, ha]

/-- A proper rectangle covered by another has its inside in the inside of the other. -/
theorem inside_of_cover {r p : Rect K} (hp : p.Ok) (h : ∀ x y, p.Has x y → r.Has x y) {x y : K} (hi : p.Inside x y) : r.Inside x y := by
  have a := h p.x0 p.y0 ⟨le_refl _, hp.1, le_refl _, hp.2⟩
  have b := h p.x1 p.y1 ⟨hp.1, le_refl _, hp.2, le_refl _⟩
  exact ⟨lt_of_le_of_lt a.1 hi.1, lt_of_lt_of_le hi.2.1 b.2.1, lt_of_le_of_lt a.2.2.1 hi.2.2.1, lt_of_lt_of_le hi.2.2.2 b.2.2.2⟩

/-- **C85**: when the recursion ends, and `f3` returns fractions between 0 and 1, the rectangles passed to `f2` tile the given rectangle: they cover it and nothing else, no two of them
overlap, and their areas add up to its area. -/
theorem C85_tiles {stop : S → Nat → Rect K → Bool × S} {frac : S → Nat → Rect K → K × S} (hf : ∀ s d r, 0 ≤ (frac s d r).1 ∧ (frac s d r).1 ≤ 1) :
    ∀ (fuel : Nat) (s : S) (depth : Nat) (rect : Rect K) (l : List (Rect K)) (s' : S), rect.Ok → subdivide stop frac fuel s depth rect = some (l, s') → Tiles rect l
  | 0, _, _, _, _, _, _, h => by simp [subdivide] at h
  | fuel + 1, s, depth, rect, l, s', hok, h => by
    rw [subdivide] at h
    dsimp only at h
    split at h
    · obtain ⟨rfl, -⟩ := Prod.mk.inj (Option.some.inj h)
      exact tiles_self hok
    · split at h
      · cases h
      · rename_i l1 s1 e1
        split at h
        · cases h
        · rename_i l2 s2 e2
          obtain ⟨rfl, -⟩ := Prod.mk.inj (Option.some.inj h)
          have hfr := hf (stop s depth rect).2 depth rect
          generalize (frac (stop s depth rect).2 depth rect).1 = f at *
          by_cases hd : depth % 2 = 0
          · simp only [hd, if_true] at e1 e2
            have hl := lerp_mem hok.1 hfr.1 hfr.2
            generalize lerp rect.x0 rect.x1 f = div at *
            have o1 : ({ rect with x0 := div } : Rect K).Ok := ⟨hl.2, hok.2⟩
            have o2 : ({ rect with x1 := div } : Rect K).Ok := ⟨hl.1, hok.2⟩
            have t1 := C85_tiles hf fuel _ _ _ _ _ o1 e1
            have t2 := C85_tiles hf fuel _ _ _ _ _ o2 e2
            refine tiles_join t1 t2 (fun x y => ?_) ?_ (fun p hp x y => inside_of_cover (t1.ok p hp) fun x y hh => (t1.cover x y).1 ⟨p, hp, hh⟩) fun x y hi hh => ?_
            · simp only [Rect.Has]
              constructor
              · rintro (⟨a, b, c⟩ | ⟨a, b, c⟩)
                · exact ⟨le_trans hl.1 a, b, c⟩
                · exact ⟨a, le_trans b hl.2, c⟩
              · rintro ⟨a, b, c⟩
                exact (le_total div x).imp (fun h => ⟨h, b, c⟩) fun h => ⟨a, h, c⟩
            · simp only [Rect.area]; ring
            · exact absurd hi.1 (not_lt.2 hh.2.1)
          · simp only [hd, if_false] at e1 e2
            have hl := lerp_mem hok.2 hfr.1 hfr.2
            generalize lerp rect.y0 rect.y1 f = div at *
            have o1 : ({ rect with y0 := div } : Rect K).Ok := ⟨hok.1, hl.2⟩
            have o2 : ({ rect with y1 := div } : Rect K).Ok := ⟨hok.1, hl.1⟩
            have t1 := C85_tiles hf fuel _ _ _ _ _ o1 e1
            have t2 := C85_tiles hf fuel _ _ _ _ _ o2 e2
            refine tiles_join t1 t2 (fun x y => ?_) ?_ (fun p hp x y => inside_of_cover (t1.ok p hp) fun x y hh => (t1.cover x y).1 ⟨p, hp, hh⟩) fun x y hi hh => ?_
            · simp only [Rect.Has]
              constructor
              · rintro (⟨a, b, c, d⟩ | ⟨a, b, c, d⟩)
                · exact ⟨a, b, le_trans hl.1 c, d⟩
                · exact ⟨a, b, c, le_trans d hl.2⟩
              · rintro ⟨a, b, c, d⟩
                exact (le_total div y).imp (fun h => ⟨a, b, h, d⟩) fun h => ⟨a, b, c, h⟩
            · simp only [Rect.area]; ring
            · exact absurd hi.2.2.1 (not_lt.2 hh.2.2.2)

/-- **C85**: if `f1` makes the recursion end at depth `D` at the latest (a likelihood of more than 1), it ends, with at most `2^D` rectangles, at least one. -/
theorem C85_ends {stop : S → Nat → Rect K → Bool × S} {frac : S → Nat → Rect K → K × S} {D : Nat} (hs : ∀ s d r, D ≤ d → (stop s d r).1 = true) :
    ∀ (n : Nat) (s : S) (depth : Nat) (rect : Rect K), D ≤ depth + n →
      ∃ l s', subdivide stop frac (n + 1) s depth rect = some (l, s') ∧ 1 ≤ l.length ∧ l.length ≤ 2 ^ n
  | 0, s, depth, rect, h => by
    refine ⟨[rect], (stop s depth rect).2, ?_, by simp⟩
    rw [subdivide]
    dsimp only
    rw [if_pos (hs s depth rect (by omega))]
  | n + 1, s, depth, rect, h => by
    rw [subdivide]
    dsimp only
    split
    · exact ⟨_, _, rfl, by simp, by simpa using Nat.one_le_two_pow⟩
    · obtain ⟨l1, s1, e1, a1, b1⟩ := C85_ends hs n (frac (stop s depth rect).2 depth rect).2 (depth + 1) _ (by omega)
      obtain ⟨l2, s2, e2, a2, b2⟩ := C85_ends hs n s1 (depth + 1) _ (by omega)
      rw [e1]
      dsimp only
      rw [e2]
      refine ⟨_, _, rfl, ?_, ?_⟩
      · rw [List.length_append]; omega
      · rw [List.length_append, Nat.pow_succ]; omega

/-- A state that counts the calls; the fraction is a quarter, and the recursion ends at depth 2. -/
example : subdivide (K := ℚ) (S := Nat) (fun s d _ => (decide (2 ≤ d), s)) (fun s _ _ => (1 / 4, s + 1)) 3 0 0 ⟨0, 0, 4, 8⟩ =
    some ([⟨1, 2, 4, 8⟩, ⟨1, 0, 4, 2⟩, ⟨0, 2, 1, 8⟩, ⟨0, 0, 1, 2⟩], 3) := by
  norm_num [subdivide, lerp]

end Verif.Spatial
