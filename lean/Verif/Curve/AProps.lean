import Verif.Curve.AModel
import Verif.Curve.Props
import Mathlib.Algebra.Order.Archimedean.Basic
import Mathlib.Tactic.Positivity
import Mathlib.Data.Real.Sqrt
import Mathlib.Data.Real.Archimedean

/-!
# Approximating a cubic by quadratics (C80)
-/

namespace Verif.Curve

variable {K : Type} [Field K] [LinearOrder K]

/-! ## Specification -/

/-- The quadratics form one connected curve from `A` to `B`. -/
def Chain (A : Pt K) : List (Pt K × Pt K × Pt K) → Pt K → Prop
  | [], B => A = B
  | q :: L, B => q.1 = A ∧ Chain q.2.2 L B

/-- The square of the distance of two points. -/
def dist2 (A B : Pt K) : K := (A 0 - B 0) ^ 2 + (A 1 - B 1) ^ 2

/-- The quadratics follow the curve `c` over `[lo, hi]`: the parameter range is cut into as many parts as there are quadratics, in order, and every point of a quadratic is within
`e` of the point of the curve at the same place of the part. -/
def Follows (c : K → Pt K) (e : K) (lo : K) : List (Pt K × Pt K × Pt K) → K → Prop
  | [], hi => lo = hi
  | q :: L, hi => ∃ mid, lo ≤ mid ∧ mid ≤ hi ∧ (∀ s, 0 ≤ s → s ≤ 1 → dist2 (bez2 q.1 q.2.1 q.2.2 s) (c (lo + (mid - lo) * s)) ≤ e ^ 2) ∧ Follows c e mid L hi

/-! ## Proofs -/

theorem chain_append {A B C : Pt K} : ∀ {L R}, Chain A L B → Chain B R C → Chain A (L ++ R) C
  | [], _, h, h' => by simp only [Chain] at h; subst h; exact h'
  | _ :: _, _, h, h' => ⟨h.1, chain_append h.2 h'⟩

theorem follows_append {c : K → Pt K} {e mid hi : K} (hm : mid ≤ hi) : ∀ {L R lo}, Follows c e lo L mid → Follows c e mid R hi → Follows c e lo (L ++ R) hi
  | [], _, _, h, h' => by simp only [Follows] at h; subst h; exact h'
  | _ :: _, _, _, ⟨m, h1, h2, h3, h4⟩, h' => ⟨m, h1, h2.trans hm, h3, follows_append hm h4 h'⟩

variable [IsStrictOrderedRing K]

/-- A reparametrised curve. -/
theorem follows_map {c c' : K → Pt K} {e a b : K} (hb : 0 ≤ b) (hc : ∀ u, c u = c' (a + b * u)) : ∀ {L lo hi}, Follows c e lo L hi → Follows c' e (a + b * lo) L (a + b * hi)
  | [], _, _, h => by simp only [Follows] at h ⊢; rw [h]
  | _ :: _, lo, hi, ⟨m, h1, h2, h3, h4⟩ => by
    refine ⟨a + b * m, by nlinarith, by nlinarith, fun s hs0 hs1 => ?_, follows_map hb hc h4⟩
    have := h3 s hs0 hs1
    rw [hc] at this
    rwa [show a + b * lo + (a + b * m - (a + b * lo)) * s = a + b * (lo + (m - lo) * s) by ring]

/-- One quadratic whose error is small enough follows the cubic. -/
theorem piece_ok {sqrt : K → K} (hs : ∀ x, 0 ≤ x → 0 ≤ sqrt x ∧ sqrt x * sqrt x = x) {e : K} {P0 P1 P2 P3 : Pt K} (h : approxError sqrt P0 P1 P2 P3 ≤ e) (s : K)
    (hs0 : 0 ≤ s) (hs1 : s ≤ 1) : dist2 (bez2 P0 (approxControl P0 P1 P2 P3) P3 s) (bez3 P0 P1 P2 P3 s) ≤ e ^ 2 := by
  simp only [approxError] at h
  generalize hM0 : 3 * P1 0 - 3 * P2 0 - P0 0 + P3 0 = M0 at h
  generalize hM1 : 3 * P1 1 - 3 * P2 1 - P0 1 + P3 1 = M1 at h
  have hn : 0 ≤ 0 + M0 * M0 + M1 * M1 := by nlinarith [mul_self_nonneg M0, mul_self_nonneg M1]
  obtain ⟨h0, h1⟩ := hs _ hn
  have hd : dist2 (bez2 P0 (approxControl P0 P1 P2 P3) P3 s) (bez3 P0 P1 P2 P3 s) = (s * (1 - s) * (1 - 2 * s) / 2) ^ 2 * (0 + M0 * M0 + M1 * M1) := by
    subst hM0 hM1
    simp only [dist2, bez2, bez3, approxControl]
    field_simp
    ring
  rw [hd, ← h1]
  generalize sqrt (0 + M0 * M0 + M1 * M1) = z at h h0
  have hw0 : 0 ≤ s * (1 - s) := mul_nonneg hs0 (by linarith)
  have hw1 : s * (1 - s) ≤ 1 / 4 := by nlinarith [mul_self_nonneg (1 - 2 * s)]
  have habs : |s * (1 - s) * (1 - 2 * s) / 2| ≤ 1 / 8 := by
    rw [abs_le]
    constructor
    · nlinarith
    · nlinarith
  have hz : |s * (1 - s) * (1 - 2 * s) / 2| * z ≤ e := by
    refine le_trans ?_ h
    refine mul_le_mul_of_nonneg_right (habs.trans (by norm_num)) h0
  have hz0 : 0 ≤ |s * (1 - s) * (1 - 2 * s) / 2| * z := mul_nonneg (abs_nonneg _) h0
  calc (s * (1 - s) * (1 - 2 * s) / 2) ^ 2 * (z * z) = (|s * (1 - s) * (1 - 2 * s) / 2| * z) ^ 2 := by rw [mul_pow, sq_abs]; ring
    _ ≤ e ^ 2 := by nlinarith

theorem approxR_ok {sqrt : K → K} (hs : ∀ x, 0 ≤ x → 0 ≤ sqrt x ∧ sqrt x * sqrt x = x) {e : K} :
    ∀ (fuel : Nat) (t0 t1 t2 : K) (P0 P1 P2 P3 : Pt K) (L), 0 ≤ t0 → t0 ≤ t1 → t1 ≤ t2 → t2 ≤ 1 → approxR sqrt e fuel t0 t1 t2 P0 P1 P2 P3 = some L →
      Chain P0 L P3 ∧ Follows (bez3 P0 P1 P2 P3) e 0 L 1
  | 0, _, _, _, _, _, _, _, _, _, _, _, _, h => by simp [approxR] at h
  | fuel + 1, t0, t1, t2, P0, P1, P2, P3, L, h0, h01, h12, h2, h => by
    have hc := C74_cubic t1 P0 P1 P2 P3
    simp only [approxR] at h
    generalize splitCubic t1 P0 P1 P2 P3 = sp at h hc
    obtain ⟨N1, N2, N3, R1, R2⟩ := sp
    simp only at h hc
    rw [Option.bind_eq_some_iff] at h
    obtain ⟨l, hl, h⟩ := h
    rw [Option.map_eq_some_iff] at h
    obtain ⟨r, hr, rfl⟩ := h
    have hL : Chain P0 l N3 ∧ Follows (bez3 P0 N1 N2 N3) e 0 l 1 := by
      split at hl
      · exact approxR_ok hs fuel _ _ _ _ _ _ _ _ h0 (by linarith) (by linarith) (by linarith) hl
      · rename_i hle
        cases hl
        exact ⟨⟨rfl, rfl⟩, 1, zero_le_one, le_refl _, fun s hs0 hs1 => by
          rw [show (0 : K) + (1 - 0) * s = s by ring]; exact piece_ok hs (not_lt.1 hle) s hs0 hs1, rfl⟩
    have hR : Chain N3 r P3 ∧ Follows (bez3 N3 R1 R2 P3) e 0 r 1 := by
      split at hr
      · exact approxR_ok hs fuel _ _ _ _ _ _ _ _ (by linarith) (by linarith) (by linarith) (by linarith) hr
      · rename_i hle
        cases hr
        exact ⟨⟨rfl, rfl⟩, 1, zero_le_one, le_refl _, fun s hs0 hs1 => by
          rw [show (0 : K) + (1 - 0) * s = s by ring]; exact piece_ok hs (not_lt.1 hle) s hs0 hs1, rfl⟩
    refine ⟨chain_append hL.1 hR.1, ?_⟩
    have f1 := follows_map (c' := bez3 P0 P1 P2 P3) (a := 0) (b := t1) (by linarith) (fun u => by rw [(hc u).1, zero_add]) hL.2
    have f2 := follows_map (c' := bez3 P0 P1 P2 P3) (a := t1) (b := 1 - t1) (by linarith) (fun u => (hc u).2) hR.2
    rw [show (0 : K) + t1 * 0 = 0 by ring, show (0 : K) + t1 * 1 = t1 by ring] at f1
    rw [show t1 + (1 - t1) * 0 = t1 by ring, show t1 + (1 - t1) * 1 = 1 by ring] at f2
    exact follows_append (by linarith) f1 f2

theorem approxStart_range (r : K × K) : 0 ≤ approxStart r ∧ approxStart r ≤ 1 := by
  simp only [approxStart]
  split
  · assumption
  · split
    · assumption
    · constructor <;> norm_num

/-- **C80**: the quadratics that `ApproxCubic` produces form one connected curve from the first to the last point of the cubic, and follow the cubic within the given error
everywhere. -/
theorem C80_follows {sqrt : K → K} (hs : ∀ x, 0 ≤ x → 0 ≤ sqrt x ∧ sqrt x * sqrt x = x) (maxerror : K) (fuel : Nat) (P0 P1 P2 P3 : Pt K) (L) (h : approxCubic sqrt maxerror fuel P0 P1 P2 P3 = some L) :
    Chain P0 L P3 ∧ Follows (bez3 P0 P1 P2 P3) maxerror 0 L 1 := by
  have hr := approxStart_range (inflectionPoints sqrt (P0 0, P0 1) (P1 0, P1 1) (P2 0, P2 1) (P3 0, P3 1))
  exact approxR_ok hs fuel _ _ _ _ _ _ _ _ (le_refl _) hr.1 hr.2 (le_refl _) h

/-! ## Termination -/

/-- The square of the third difference. -/
def third (P0 P1 P2 P3 : Pt K) : K := (3 * P1 0 - 3 * P2 0 - P0 0 + P3 0) ^ 2 + (3 * P1 1 - 3 * P2 1 - P0 1 + P3 1) ^ 2

omit [LinearOrder K] [IsStrictOrderedRing K] in
theorem third_split (t : K) (P0 P1 P2 P3 : Pt K) :
    third P0 (splitCubic t P0 P1 P2 P3).1 (splitCubic t P0 P1 P2 P3).2.1 (splitCubic t P0 P1 P2 P3).2.2.1 = t ^ 6 * third P0 P1 P2 P3 ∧
    third (splitCubic t P0 P1 P2 P3).2.2.1 (splitCubic t P0 P1 P2 P3).2.2.2.1 (splitCubic t P0 P1 P2 P3).2.2.2.2 P3 = (1 - t) ^ 6 * third P0 P1 P2 P3 := by
  constructor <;> simp only [third, splitCubic, lerp] <;> ring

theorem third_nonneg (P0 P1 P2 P3 : Pt K) : 0 ≤ third P0 P1 P2 P3 := add_nonneg (sq_nonneg _) (sq_nonneg _)

theorem error_le {sqrt : K → K} (hs : ∀ x, 0 ≤ x → 0 ≤ sqrt x ∧ sqrt x * sqrt x = x) {e : K} (he : 0 ≤ e) {P0 P1 P2 P3 : Pt K} (h : third P0 P1 P2 P3 ≤ e ^ 2) :
    ¬e < approxError sqrt P0 P1 P2 P3 := by
  simp only [approxError]
  simp only [third] at h
  generalize 3 * P1 0 - 3 * P2 0 - P0 0 + P3 0 = M0 at h ⊢
  generalize 3 * P1 1 - 3 * P2 1 - P0 1 + P3 1 = M1 at h ⊢
  have hn : 0 ≤ 0 + M0 * M0 + M1 * M1 := by nlinarith [mul_self_nonneg M0, mul_self_nonneg M1]
  obtain ⟨h0, h1⟩ := hs _ hn
  generalize sqrt (0 + M0 * M0 + M1 * M1) = z at h0 h1 ⊢
  have : z ≤ e := by
    refine le_of_sq_le_sq ?_ he
    nlinarith
  have : (336008945728118 / 1000000000000000 : K) * z ≤ 1 * z := mul_le_mul_of_nonneg_right (by norm_num) h0
  intro h
  linarith

/-- It terminates. -/
def Term (sqrt : K → K) (e t0 t1 t2 : K) (P0 P1 P2 P3 : Pt K) : Prop := ∃ fuel L, approxR sqrt e fuel t0 t1 t2 P0 P1 P2 P3 = some L

omit [IsStrictOrderedRing K] in
theorem approxR_mono {sqrt : K → K} {e : K} : ∀ (n m : Nat) (t0 t1 t2 : K) (P0 P1 P2 P3 : Pt K) (L), n ≤ m → approxR sqrt e n t0 t1 t2 P0 P1 P2 P3 = some L →
    approxR sqrt e m t0 t1 t2 P0 P1 P2 P3 = some L
  | 0, _, _, _, _, _, _, _, _, _, _, h => by simp [approxR] at h
  | n + 1, m, t0, t1, t2, P0, P1, P2, P3, L, hm, h => by
    obtain ⟨m, rfl⟩ : ∃ k, m = k + 1 := ⟨m - 1, by omega⟩
    simp only [approxR] at h ⊢
    rw [Option.bind_eq_some_iff] at h ⊢
    obtain ⟨l, hl, h⟩ := h
    rw [Option.map_eq_some_iff] at h
    obtain ⟨r, hr, rfl⟩ := h
    refine ⟨l, ?_, ?_⟩
    · split
      · rename_i hc
        rw [if_pos hc] at hl
        exact approxR_mono n m _ _ _ _ _ _ _ _ (by omega) hl
      · rename_i hc
        rwa [if_neg hc] at hl
    · rw [Option.map_eq_some_iff]
      refine ⟨r, ?_, rfl⟩
      split
      · rename_i hc
        rw [if_pos hc] at hr
        exact approxR_mono n m _ _ _ _ _ _ _ _ (by omega) hr
      · rename_i hc
        rwa [if_neg hc] at hr

theorem term_step {sqrt : K → K} (hs : ∀ x, 0 ≤ x → 0 ≤ sqrt x ∧ sqrt x * sqrt x = x) {e : K} (he : 0 ≤ e) {t0 t1 t2 : K} {P0 P1 P2 P3 : Pt K}
    (h1 : ∀ Q0 Q1 Q2 Q3 : Pt K, third Q0 Q1 Q2 Q3 = t1 ^ 6 * third P0 P1 P2 P3 → ¬third Q0 Q1 Q2 Q3 ≤ e ^ 2 → Term sqrt e t0 ((t0 + t1) / 2) t1 Q0 Q1 Q2 Q3)
    (h2 : ∀ Q0 Q1 Q2 Q3 : Pt K, third Q0 Q1 Q2 Q3 = (1 - t1) ^ 6 * third P0 P1 P2 P3 → ¬third Q0 Q1 Q2 Q3 ≤ e ^ 2 → Term sqrt e t1 ((t1 + t2) / 2) t2 Q0 Q1 Q2 Q3) :
    Term sqrt e t0 t1 t2 P0 P1 P2 P3 := by
  have hsp := third_split t1 P0 P1 P2 P3
  suffices hg : ∃ n L, approxR sqrt e (n + 1) t0 t1 t2 P0 P1 P2 P3 = some L from ⟨_, hg.choose_spec⟩
  simp only [approxR]
  generalize splitCubic t1 P0 P1 P2 P3 = sp at hsp ⊢
  obtain ⟨N1, N2, N3, R1, R2⟩ := sp
  simp only at hsp ⊢
  have a1 : ∃ n l, ∀ m, n ≤ m → (if e < approxError sqrt P0 N1 N2 N3 then approxR sqrt e m t0 ((t1 + t0) / 2) t1 P0 N1 N2 N3
      else some [(P0, approxControl P0 N1 N2 N3, N3)]) = some l := by
    by_cases hc : third P0 N1 N2 N3 ≤ e ^ 2
    · exact ⟨0, _, fun m _ => by rw [if_neg (error_le hs he hc)]⟩
    · by_cases hc' : e < approxError sqrt P0 N1 N2 N3
      · obtain ⟨n, l, h⟩ := h1 _ _ _ _ hsp.1 hc
        exact ⟨n, l, fun m hm => by rw [if_pos hc', add_comm t1 t0]; exact approxR_mono _ _ _ _ _ _ _ _ _ _ hm h⟩
      · exact ⟨0, _, fun m _ => by rw [if_neg hc']⟩
  have a2 : ∃ n l, ∀ m, n ≤ m → (if e < approxError sqrt N3 R1 R2 P3 then approxR sqrt e m t1 ((t2 + t1) / 2) t2 N3 R1 R2 P3
      else some [(N3, approxControl N3 R1 R2 P3, P3)]) = some l := by
    by_cases hc : third N3 R1 R2 P3 ≤ e ^ 2
    · exact ⟨0, _, fun m _ => by rw [if_neg (error_le hs he hc)]⟩
    · by_cases hc' : e < approxError sqrt N3 R1 R2 P3
      · obtain ⟨n, l, h⟩ := h2 _ _ _ _ hsp.2 hc
        exact ⟨n, l, fun m hm => by rw [if_pos hc', add_comm t2 t1]; exact approxR_mono _ _ _ _ _ _ _ _ _ _ hm h⟩
      · exact ⟨0, _, fun m _ => by rw [if_neg hc']⟩
  obtain ⟨n1, l1, e1⟩ := a1
  obtain ⟨n2, l2, e2⟩ := a2
  refine ⟨max n1 n2, l1 ++ l2, ?_⟩
  rw [e1 _ (le_max_left _ _), e2 _ (le_max_right _ _)]
  rfl

/-- Away from the ends, every level shrinks by a fixed factor. -/
theorem term_mid {sqrt : K → K} (hs : ∀ x, 0 ≤ x → 0 ≤ sqrt x ∧ sqrt x * sqrt x = x) {e d : K} (he : 0 ≤ e) (hd : 0 < d) :
    ∀ (n : Nat) (a b : K) (P0 P1 P2 P3 : Pt K), d ≤ a → a ≤ b → b ≤ 1 - d → third P0 P1 P2 P3 * (1 - d) ^ n ≤ e ^ 2 → Term sqrt e a ((a + b) / 2) b P0 P1 P2 P3
  | n, a, b, P0, P1, P2, P3, ha, hab, hb, ht => by
    have h0 := third_nonneg P0 P1 P2 P3
    have hd1 : d ≤ 1 - d := by linarith
    have hp0 : 0 ≤ (1 - d) := by linarith
    have hx : ∀ x : K, 0 ≤ x → x ≤ 1 - d → x ^ 6 ≤ 1 - d := fun x h1 h2 => by
      calc x ^ 6 ≤ x ^ 1 := pow_le_pow_of_le_one h1 (by linarith) (by norm_num)
        _ ≤ 1 - d := by rwa [pow_one]
    have key : ∀ x : K, 0 ≤ x → x ≤ 1 - d → ∀ Q0 Q1 Q2 Q3 : Pt K, third Q0 Q1 Q2 Q3 = x ^ 6 * third P0 P1 P2 P3 → ¬third Q0 Q1 Q2 Q3 ≤ e ^ 2 →
        ∃ m, n = m + 1 ∧ third Q0 Q1 Q2 Q3 * (1 - d) ^ m ≤ e ^ 2 := by
      intro x h1 h2 Q0 Q1 Q2 Q3 hq hn
      have hx' := hx x h1 h2
      rcases n with _ | m
      · exfalso
        apply hn
        rw [hq]
        rw [pow_zero, mul_one] at ht
        refine le_trans ?_ ht
        calc x ^ 6 * third P0 P1 P2 P3 ≤ 1 * third P0 P1 P2 P3 := mul_le_mul_of_nonneg_right (by linarith) h0
          _ = _ := one_mul _
      · refine ⟨m, rfl, le_trans ?_ ht⟩
        rw [hq, pow_succ _ m]
        calc x ^ 6 * third P0 P1 P2 P3 * (1 - d) ^ m = x ^ 6 * (third P0 P1 P2 P3 * (1 - d) ^ m) := by ring
          _ ≤ (1 - d) * (third P0 P1 P2 P3 * (1 - d) ^ m) := mul_le_mul_of_nonneg_right hx' (mul_nonneg h0 (pow_nonneg hp0 _))
          _ = _ := by ring
    refine term_step hs he ?_ ?_
    · intro Q0 Q1 Q2 Q3 hq hn
      obtain ⟨m, rfl, hm⟩ := key _ (by linarith) (by linarith) Q0 Q1 Q2 Q3 hq hn
      exact term_mid hs he hd m _ _ _ _ _ _ ha (by linarith) (by linarith) hm
    · intro Q0 Q1 Q2 Q3 hq hn
      obtain ⟨m, rfl, hm⟩ := key _ (by linarith) (by linarith) Q0 Q1 Q2 Q3 hq hn
      exact term_mid hs he hd m _ _ _ _ _ _ (by linarith) (by linarith) hb hm
termination_by n => n

theorem term_mid' [Archimedean K] {sqrt : K → K} (hs : ∀ x, 0 ≤ x → 0 ≤ sqrt x ∧ sqrt x * sqrt x = x) {e a b : K} (he : 0 < e) (ha : 0 < a) (hab : a ≤ b) (hb : b < 1)
    (P0 P1 P2 P3 : Pt K) : Term sqrt e a ((a + b) / 2) b P0 P1 P2 P3 := by
  have hd : 0 < min a (1 - b) := lt_min ha (by linarith)
  have hda := min_le_left a (1 - b)
  have hdb := min_le_right a (1 - b)
  generalize min a (1 - b) = d at hd hda hdb
  have h0 := third_nonneg P0 P1 P2 P3
  obtain ⟨n, hn⟩ := exists_pow_lt_of_lt_one (show 0 < e ^ 2 / (third P0 P1 P2 P3 + 1) by positivity) (show 1 - d < 1 by linarith)
  refine term_mid hs he.le hd n a b P0 P1 P2 P3 hda hab (by linarith) ?_
  rw [lt_div_iff₀ (by linarith)] at hn
  have : 0 ≤ (1 - d) ^ n := pow_nonneg (by linarith) _
  nlinarith

/-- At the left end. -/
theorem term_left [Archimedean K] {sqrt : K → K} (hs : ∀ x, 0 ≤ x → 0 ≤ sqrt x ∧ sqrt x * sqrt x = x) {e : K} (he : 0 < e) :
    ∀ (n : Nat) (b : K) (P0 P1 P2 P3 : Pt K), 0 < b → b < 1 → third P0 P1 P2 P3 * (1 / 2) ^ n ≤ e ^ 2 → Term sqrt e 0 ((0 + b) / 2) b P0 P1 P2 P3
  | n, b, P0, P1, P2, P3, hb0, hb1, ht => by
    have h0 := third_nonneg P0 P1 P2 P3
    refine term_step hs he.le ?_ ?_
    · intro Q0 Q1 Q2 Q3 hq hn
      have hx : ((0 + b) / 2) ^ 6 ≤ 1 / 2 := by
        calc ((0 + b) / 2) ^ 6 ≤ ((0 + b) / 2) ^ 1 := pow_le_pow_of_le_one (by linarith) (by linarith) (by norm_num)
          _ ≤ 1 / 2 := by rw [pow_one]; linarith
      obtain rfl | ⟨m, rfl⟩ : n = 0 ∨ ∃ m, n = m + 1 := by cases n with | zero => exact .inl rfl | succ m => exact .inr ⟨m, rfl⟩
      · exfalso
        apply hn
        rw [hq]
        rw [pow_zero, mul_one] at ht
        refine le_trans ?_ ht
        calc ((0 + b) / 2) ^ 6 * third P0 P1 P2 P3 ≤ 1 * third P0 P1 P2 P3 := mul_le_mul_of_nonneg_right (by linarith) h0
          _ = _ := one_mul _
      · refine term_left hs he m _ _ _ _ _ (by linarith) (by linarith) (le_trans ?_ ht)
        rw [hq, pow_succ _ m]
        calc ((0 + b) / 2) ^ 6 * third P0 P1 P2 P3 * (1 / 2) ^ m = ((0 + b) / 2) ^ 6 * (third P0 P1 P2 P3 * (1 / 2) ^ m) := by ring
          _ ≤ (1 / 2) * (third P0 P1 P2 P3 * (1 / 2) ^ m) := mul_le_mul_of_nonneg_right hx (mul_nonneg h0 (by positivity))
          _ = _ := by ring
    · intro Q0 Q1 Q2 Q3 hq hn
      exact term_mid' hs he (by linarith) (by linarith) hb1 _ _ _ _
termination_by n => n

/-- At the right end. -/
theorem term_right [Archimedean K] {sqrt : K → K} (hs : ∀ x, 0 ≤ x → 0 ≤ sqrt x ∧ sqrt x * sqrt x = x) {e : K} (he : 0 < e) :
    ∀ (n : Nat) (a : K) (P0 P1 P2 P3 : Pt K), 0 < a → a < 1 → third P0 P1 P2 P3 * (1 / 2) ^ n ≤ e ^ 2 → Term sqrt e a ((a + 1) / 2) 1 P0 P1 P2 P3
  | n, a, P0, P1, P2, P3, ha0, ha1, ht => by
    have h0 := third_nonneg P0 P1 P2 P3
    refine term_step hs he.le ?_ ?_
    · intro Q0 Q1 Q2 Q3 hq hn
      exact term_mid' hs he ha0 (by linarith) (by linarith) _ _ _ _
    · intro Q0 Q1 Q2 Q3 hq hn
      have hx : (1 - (a + 1) / 2) ^ 6 ≤ 1 / 2 := by
        calc (1 - (a + 1) / 2) ^ 6 ≤ (1 - (a + 1) / 2) ^ 1 := pow_le_pow_of_le_one (by linarith) (by linarith) (by norm_num)
          _ ≤ 1 / 2 := by rw [pow_one]; linarith
      obtain rfl | ⟨m, rfl⟩ : n = 0 ∨ ∃ m, n = m + 1 := by cases n with | zero => exact .inl rfl | succ m => exact .inr ⟨m, rfl⟩
      · exfalso
        apply hn
        rw [hq]
        rw [pow_zero, mul_one] at ht
        refine le_trans ?_ ht
        calc (1 - (a + 1) / 2) ^ 6 * third P0 P1 P2 P3 ≤ 1 * third P0 P1 P2 P3 := mul_le_mul_of_nonneg_right (by linarith) h0
          _ = _ := one_mul _
      · refine term_right hs he m _ _ _ _ _ (by linarith) (by linarith) (le_trans ?_ ht)
        rw [hq, pow_succ _ m]
        calc (1 - (a + 1) / 2) ^ 6 * third P0 P1 P2 P3 * (1 / 2) ^ m = (1 - (a + 1) / 2) ^ 6 * (third P0 P1 P2 P3 * (1 / 2) ^ m) := by ring
          _ ≤ (1 / 2) * (third P0 P1 P2 P3 * (1 / 2) ^ m) := mul_le_mul_of_nonneg_right hx (mul_nonneg h0 (by positivity))
          _ = _ := by ring
termination_by n => n

theorem exists_half [Archimedean K] {e : K} (he : 0 < e) (P0 P1 P2 P3 : Pt K) : ∃ n : Nat, third P0 P1 P2 P3 * (1 / 2) ^ n ≤ e ^ 2 := by
  have h0 := third_nonneg P0 P1 P2 P3
  obtain ⟨n, hn⟩ := exists_pow_lt_of_lt_one (show 0 < e ^ 2 / (third P0 P1 P2 P3 + 1) by positivity) (show (1 / 2 : K) < 1 by norm_num)
  refine ⟨n, ?_⟩
  rw [lt_div_iff₀ (by linarith)] at hn
  have : 0 ≤ (1 / 2 : K) ^ n := by positivity
  nlinarith

/-- The whole range, split in the middle. -/
theorem term_full [Archimedean K] {sqrt : K → K} (hs : ∀ x, 0 ≤ x → 0 ≤ sqrt x ∧ sqrt x * sqrt x = x) {e : K} (he : 0 < e) (P0 P1 P2 P3 : Pt K) :
    Term sqrt e 0 ((0 + 1) / 2) 1 P0 P1 P2 P3 := by
  refine term_step hs he.le ?_ ?_
  · intro Q0 Q1 Q2 Q3 _ _
    obtain ⟨n, hn⟩ := exists_half he Q0 Q1 Q2 Q3
    exact term_left hs he n _ _ _ _ _ (by norm_num) (by norm_num) hn
  · intro Q0 Q1 Q2 Q3 _ _
    obtain ⟨n, hn⟩ := exists_half he Q0 Q1 Q2 Q3
    exact term_right hs he n _ _ _ _ _ (by norm_num) (by norm_num) hn

/-- **C80**: `ApproxCubic` terminates for every cubic and every positive error, wherever in `[0, 1]` the first split is. -/
theorem C80_terminates [Archimedean K] {sqrt : K → K} (hs : ∀ x, 0 ≤ x → 0 ≤ sqrt x ∧ sqrt x * sqrt x = x) {maxerror : K} (he : 0 < maxerror) (P0 P1 P2 P3 : Pt K) :
    (∃ fuel L, approxCubic sqrt maxerror fuel P0 P1 P2 P3 = some L) ∧
    (∀ x, 0 ≤ x → x ≤ 1 → ∃ fuel L, approxR sqrt maxerror fuel 0 x 1 P0 P1 P2 P3 = some L) := by
  have key : ∀ x, 0 ≤ x → x ≤ 1 → Term sqrt maxerror 0 x 1 P0 P1 P2 P3 := by
    intro x h0 h1
    refine term_step hs he.le ?_ ?_
    · intro Q0 Q1 Q2 Q3 hq hn
      rcases eq_or_lt_of_le h0 with e0 | e0
      · exfalso
        apply hn
        rw [hq, ← e0]
        have := sq_nonneg maxerror
        norm_num
        exact this
      · rcases eq_or_lt_of_le h1 with e1 | e1
        · rw [e1]
          exact term_full hs he _ _ _ _
        · obtain ⟨n, hn⟩ := exists_half he Q0 Q1 Q2 Q3
          exact term_left hs he n _ _ _ _ _ e0 e1 hn
    · intro Q0 Q1 Q2 Q3 hq hn
      rcases eq_or_lt_of_le h1 with e1 | e1
      · exfalso
        apply hn
        rw [hq, e1]
        have := sq_nonneg maxerror
        norm_num
        exact this
      · rcases eq_or_lt_of_le h0 with e0 | e0
        · rw [← e0]
          exact term_full hs he _ _ _ _
        · obtain ⟨n, hn⟩ := exists_half he Q0 Q1 Q2 Q3
          exact term_right hs he n _ _ _ _ _ e0 e1 hn
  have hr := approxStart_range (inflectionPoints sqrt (P0 0, P0 1) (P1 0, P1 1) (P2 0, P2 1) (P3 0, P3 1))
  exact ⟨key _ hr.1 hr.2, key⟩

/-- Over the real numbers there is a square root as the theorems ask for. -/
example (maxerror : ℝ) (he : 0 < maxerror) : ∃ fuel L, approxCubic Real.sqrt maxerror fuel ![0, 0] ![1, 3] ![2, -3] ![3, 0] = some L ∧
    Chain ![0, 0] L ![3, 0] ∧ Follows (bez3 ![0, 0] ![1, 3] ![2, -3] ![3, 0]) maxerror 0 L 1 := by
  have hs : ∀ x : ℝ, 0 ≤ x → 0 ≤ Real.sqrt x ∧ Real.sqrt x * Real.sqrt x = x := fun x hx => ⟨Real.sqrt_nonneg x, Real.mul_self_sqrt hx⟩
  obtain ⟨fuel, L, h⟩ := (C80_terminates hs he ![0, 0] ![1, 3] ![2, -3] ![3, 0]).1
  exact ⟨fuel, L, h, C80_follows hs _ _ _ _ _ _ _ h⟩

end Verif.Curve
