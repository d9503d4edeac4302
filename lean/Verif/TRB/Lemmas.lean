import Verif.TRB.Model
import Verif.Common.Cmp

/-! Red-black lemmas: colours, black heights and in-order contents of the threaded tree. -/

namespace Verif.TRB

variable {α : Type}

/-- A red-black subtree of black height `h`: no red node with a red child, same number of black nodes on all paths. -/
def RB : Tree α → Nat → Prop
  | .leaf, h => h = 0
  | .node .red l _ r, h => RB l h ∧ RB r h ∧ color l = .black ∧ color r = .black
  | .node .black l _ r, h => ∃ h', h = h' + 1 ∧ RB l h' ∧ RB r h'

/-- Colour above; the root must be black, as if under a red node. -/
def top : Path α → Color
  | [] => .red
  | f :: _ => f.color

/-- The other child in a frame. -/
def Frame.sib : Frame α → Tree α
  | .L _ _ r => r
  | .R _ l _ => l

/-- Surroundings into which a subtree of black height `h` fits. -/
def PathOK : Path α → Nat → Prop
  | [], _ => True
  | f :: p, h => RB f.sib h ∧ (f.color = .red → color f.sib = .black ∧ top p = .black) ∧
      PathOK p (if f.color = .black then h + 1 else h)

theorem color_ne_red {c : Color} : c ≠ .red ↔ c = .black := by cases c <;> simp
theorem color_ne_black {c : Color} : c ≠ .black ↔ c = .red := by cases c <;> simp

theorem zip_RB : ∀ (p : Path α) (t : Tree α) (h : Nat), RB t h → PathOK p h → (top p = .red → color t = .black) →
    color (zip t p) = .black ∧ ∃ H, RB (zip t p) H := by
  intro p
  induction p with
  | nil => intro t h h1 _ h3; exact ⟨h3 rfl, h, h1⟩
  | cons f p ih =>
    intro t h h1 h2 h3
    obtain ⟨e1, e2, e3⟩ := h2
    cases f with
    | L c x r =>
      cases c with
      | red => exact ih _ h ⟨h1, e1, h3 rfl, (e2 rfl).1⟩ (by simpa [Frame.color] using e3) (by intro hh; rw [(e2 rfl).2] at hh; cases hh)
      | black => exact ih _ (h + 1) ⟨h, rfl, h1, e1⟩ (by simpa [Frame.color] using e3) (fun _ => rfl)
    | R c l x =>
      cases c with
      | red => exact ih _ h ⟨e1, h1, (e2 rfl).1, h3 rfl⟩ (by simpa [Frame.color] using e3) (by intro hh; rw [(e2 rfl).2] at hh; cases hh)
      | black => exact ih _ (h + 1) ⟨h, rfl, e1, h1⟩ (by simpa [Frame.color] using e3) (fun _ => rfl)

theorem blacken_of_black {t : Tree α} (h : color t = .black) : blacken t = t := by
  cases t with
  | leaf => rfl
  | node c l x r => simp only [color] at h; subst h; rfl

theorem RB_blacken_red {t : Tree α} {h : Nat} (hc : color t = .red) (ht : RB t h) : RB (blacken t) (h + 1) := by
  cases t with
  | leaf => simp [color] at hc
  | node c l x r =>
    simp only [color] at hc
    subst hc
    exact ⟨h, rfl, ht.1, ht.2.1⟩

theorem color_blacken (t : Tree α) : color (blacken t) = .black := by cases t <;> rfl

theorem toList_blacken (t : Tree α) : toList (blacken t) = toList t := by cases t <;> rfl

/-- Elements before the hole. -/
def before : Path α → List (E α)
  | [] => []
  | .L .. :: p => before p
  | .R _ l x :: p => before p ++ toList l ++ [x]

/-- Elements after the hole. -/
def after : Path α → List (E α)
  | [] => []
  | .L _ x r :: p => x :: toList r ++ after p
  | .R .. :: p => after p

theorem toList_zip : ∀ (p : Path α) (t : Tree α), toList (zip t p) = before p ++ toList t ++ after p := by
  intro p
  induction p with
  | nil => intro t; simp [zip, before, after]
  | cons f p ih => intro t; cases f <;> simp [zip, before, after, ih, toList]

theorem zip_append (p q : Path α) : ∀ t, zip t (q ++ p) = zip (zip t q) p := by
  induction q with
  | nil => intro t; rfl
  | cons f q ih => intro t; cases f <;> exact ih _

theorem fixInsert_black {n : Tree α} {f g : Frame α} {p : Path α} (hf : f.color = .black) :
    fixInsert n (f :: g :: p) = some (blacken (zip n (f :: g :: p))) := by
  cases f <;> cases g <;> simp only [fixInsert] <;> exact if_pos hf

theorem fixInsert_spec : ∀ (n : Nat) (p : Path α) (t : Tree α) (h : Nat), p.length ≤ n → color t = .red → RB t h → PathOK p h →
    ∃ t', fixInsert t p = some t' ∧ color t' = .black ∧ (∃ H, RB t' H) ∧ toList t' = before p ++ toList t ++ after p := by
  intro n
  induction n with
  | zero =>
    intro p t h hp hc ht _
    have : p = [] := List.length_eq_zero_iff.1 (by omega)
    subst this
    exact ⟨_, rfl, color_blacken t, ⟨_, RB_blacken_red hc ht⟩, by simp [toList_blacken, before, after]⟩
  | succ n ih =>
    intro p t h hp hc ht hok
    have hblack : ∀ p : Path α, PathOK p h → top p = .black → color (blacken (zip t p)) = .black ∧ (∃ H, RB (blacken (zip t p)) H) ∧
        toList (blacken (zip t p)) = before p ++ toList t ++ after p := by
      intro p hok htop
      obtain ⟨z1, z2⟩ := zip_RB p t h ht hok (by rw [htop]; intro hh; cases hh)
      rw [blacken_of_black z1]
      exact ⟨z1, z2, toList_zip p t⟩
    match p with
    | [] => exact ⟨_, rfl, color_blacken t, ⟨_, RB_blacken_red hc ht⟩, by simp [toList_blacken, before, after]⟩
    | [f] =>
      have hf : f.color = .black := by
        rw [← color_ne_red]; intro hh
        have := (hok.2.1 hh).2
        simp [top] at this
      exact ⟨_, by simp only [fixInsert]; rw [if_pos hf], hblack [f] hok hf⟩
    | f :: g :: p =>
      by_cases hf : f.color = .black
      · exact ⟨_, fixInsert_black hf, hblack _ hok hf⟩
      · have hf' := color_ne_black.1 hf
        obtain ⟨e1, e2, e3⟩ := hok
        obtain ⟨e4, e5⟩ := e2 hf'
        rw [if_neg hf] at e3
        have hg : g.color = .black := e5
        obtain ⟨g1, _, g3⟩ := e3
        rw [if_pos hg] at g3
        -- the subtree put at the grandparent's place
        have hrec : ∀ s : Tree α, color s = .red → RB s (h + 1) →
            ∃ t', fixInsert s p = some t' ∧ color t' = .black ∧ (∃ H, RB t' H) ∧ toList t' = before p ++ toList s ++ after p :=
          fun s hs1 hs2 => ih p s (h + 1) (by simp only [List.length_cons] at hp; omega) hs1 hs2 g3
        have hend : ∀ s : Tree α, color s = .black → RB s (h + 1) →
            color (blacken (zip s p)) = .black ∧ (∃ H, RB (blacken (zip s p)) H) ∧
            toList (blacken (zip s p)) = before p ++ toList s ++ after p := by
          intro s hs1 hs2
          obtain ⟨z1, z2⟩ := zip_RB p s (h + 1) hs2 g3 (fun _ => hs1)
          rw [blacken_of_black z1]
          exact ⟨z1, z2, toList_zip p s⟩
        obtain ⟨a, z, b, rfl⟩ : ∃ a z b, t = .node .red a z b := by
          cases t with
          | leaf => simp [color] at hc
          | node c a z b => simp only [color] at hc; subst hc; exact ⟨a, z, b, rfl⟩
        obtain ⟨ra, rb, ca, cb⟩ := ht
        cases f with
        | L fc x r =>
          simp only [Frame.sib] at e1 e4
          cases g with
          | L gc y u =>
            simp only [Frame.sib] at g1
            simp only [fixInsert]
            rw [if_neg hf]
            by_cases hu : color u = .red
            · rw [if_pos hu]
              obtain ⟨t', k1, k2, k3, k4⟩ := hrec (.node .red (.node .black (.node .red a z b) x r) y (blacken u)) rfl
                ⟨⟨h, rfl, ⟨ra, rb, ca, cb⟩, e1⟩, RB_blacken_red hu g1, rfl, color_blacken u⟩
              exact ⟨t', k1, k2, k3, by rw [k4]; simp [toList, toList_blacken, before, after]⟩
            · rw [if_neg hu]
              obtain ⟨k2, k3, k4⟩ := hend (.node .black (.node .red a z b) x (.node .red r y u)) rfl
                ⟨h, rfl, ⟨ra, rb, ca, cb⟩, e1, g1, e4, color_ne_red.1 hu⟩
              exact ⟨_, rfl, k2, k3, by rw [k4]; simp [toList, before, after]⟩
          | R gc u y =>
            simp only [Frame.sib] at g1
            simp only [fixInsert]
            rw [if_neg hf]
            by_cases hu : color u = .red
            · rw [if_pos hu]
              obtain ⟨t', k1, k2, k3, k4⟩ := hrec (.node .red (blacken u) y (.node .black (.node .red a z b) x r)) rfl
                ⟨RB_blacken_red hu g1, ⟨h, rfl, ⟨ra, rb, ca, cb⟩, e1⟩, color_blacken u, rfl⟩
              exact ⟨t', k1, k2, k3, by rw [k4]; simp [toList, toList_blacken, before, after]⟩
            · rw [if_neg hu]
              obtain ⟨k2, k3, k4⟩ := hend (.node .black (.node .red u y a) z (.node .red b x r)) rfl
                ⟨h, rfl, ⟨g1, ra, color_ne_red.1 hu, ca⟩, rb, e1, cb, e4⟩
              exact ⟨_, rfl, k2, k3, by rw [k4]; simp [toList, before, after]⟩
        | R fc l x =>
          simp only [Frame.sib] at e1 e4
          cases g with
          | L gc y u =>
            simp only [Frame.sib] at g1
            simp only [fixInsert]
            rw [if_neg hf]
            by_cases hu : color u = .red
            · rw [if_pos hu]
              obtain ⟨t', k1, k2, k3, k4⟩ := hrec (.node .red (.node .black l x (.node .red a z b)) y (blacken u)) rfl
                ⟨⟨h, rfl, e1, ⟨ra, rb, ca, cb⟩⟩, RB_blacken_red hu g1, rfl, color_blacken u⟩
              exact ⟨t', k1, k2, k3, by rw [k4]; simp [toList, toList_blacken, before, after]⟩
            · rw [if_neg hu]
              obtain ⟨k2, k3, k4⟩ := hend (.node .black (.node .red l x a) z (.node .red b y u)) rfl
                ⟨h, rfl, ⟨e1, ra, e4, ca⟩, rb, g1, cb, color_ne_red.1 hu⟩
              exact ⟨_, rfl, k2, k3, by rw [k4]; simp [toList, before, after]⟩
          | R gc u y =>
            simp only [Frame.sib] at g1
            simp only [fixInsert]
            rw [if_neg hf]
            by_cases hu : color u = .red
            · rw [if_pos hu]
              obtain ⟨t', k1, k2, k3, k4⟩ := hrec (.node .red (blacken u) y (.node .black l x (.node .red a z b))) rfl
                ⟨RB_blacken_red hu g1, ⟨h, rfl, e1, ⟨ra, rb, ca, cb⟩⟩, color_blacken u, rfl⟩
              exact ⟨t', k1, k2, k3, by rw [k4]; simp [toList, toList_blacken, before, after]⟩
            · rw [if_neg hu]
              obtain ⟨k2, k3, k4⟩ := hend (.node .black (.node .red u y l) x (.node .red a z b)) rfl
                ⟨h, rfl, ⟨g1, e1, color_ne_red.1 hu, e4⟩, ra, rb, ca, cb⟩
              exact ⟨_, rfl, k2, k3, by rw [k4]; simp [toList, before, after]⟩

/-- A subtree that is one black node short of `h + 1`: black, or red and repaired by blackening. -/
def Short (z : Tree α) (h : Nat) : Prop :=
  (color z = .black ∧ RB z h) ∨ (color z = .red ∧ RB (blacken z) (h + 1))

theorem RB.short {z : Tree α} {h : Nat} (hz : RB z h) : Short z h := by
  by_cases hc : color z = .black
  · exact Or.inl ⟨hc, hz⟩
  · exact Or.inr ⟨color_ne_black.1 hc, RB_blacken_red (color_ne_black.1 hc) hz⟩

theorem RB_black {w : Tree α} {h : Nat} (hw : RB w (h + 1)) (hc : color w = .black) :
    ∃ l x r, w = .node .black l x r ∧ RB l h ∧ RB r h := by
  cases w with
  | leaf => simp [RB] at hw
  | node c l x r =>
    simp only [color] at hc
    subst hc
    obtain ⟨h', e, h1, h2⟩ := hw
    cases e
    exact ⟨l, x, r, rfl, h1, h2⟩

theorem RB_red {w : Tree α} {h : Nat} (hw : RB w h) (hc : color w = .red) :
    ∃ l x r, w = .node .red l x r ∧ RB l h ∧ RB r h ∧ color l = .black ∧ color r = .black := by
  cases w with
  | leaf => simp [color] at hc
  | node c l x r =>
    simp only [color] at hc
    subst hc
    exact ⟨l, x, r, rfl, hw⟩

/-- The result of one step at a parent of colour `c`. -/
def StepOK (c : Color) (h : Nat) (L : List (E α)) (r : Option (Tree α × Bool)) : Prop :=
  ∃ t up, r = some (t, up) ∧ toList t = L ∧
    (up = true → color t = c ∧ (if c = .red then RB (blacken t) (h + 1) else RB t (h + 1))) ∧
    (up = false → color t = c ∧ RB t (if c = .red then h + 1 else h + 2))

theorem stepL_spec {z : Tree α} {c : Color} {x : E α} {w : Tree α} {h : Nat} (hz : RB z h) (hzc : color z = .black)
    (hw : RB w (h + 1)) (hwc : color w = .black) : StepOK c h (toList z ++ x :: toList w) (stepL z c x w) := by
  obtain ⟨wl, wx, wr, rfl, h1, h2⟩ := RB_black hw hwc
  simp only [stepL]
  by_cases hb : color wl = .black ∧ color wr = .black
  · rw [if_pos hb]
    refine ⟨_, _, rfl, by simp [toList], ?_, by simp⟩
    intro _
    refine ⟨rfl, ?_⟩
    cases c with
    | red => exact ⟨h, rfl, hz, h1, h2, hb.1, hb.2⟩
    | black => exact ⟨h, rfl, hz, h1, h2, hb.1, hb.2⟩
  · rw [if_neg hb]
    by_cases hr : color wr = .black
    · rw [if_pos hr]
      have hl : color wl = .red := by rw [← color_ne_black]; intro hh; exact hb ⟨hh, hr⟩
      obtain ⟨a, y, b, rfl, ra, rb, ca, cb⟩ := RB_red h1 hl
      refine ⟨_, _, rfl, by simp [toList, toList_blacken], by simp, ?_⟩
      intro _
      refine ⟨rfl, ?_⟩
      cases c with
      | red => exact ⟨⟨h, rfl, hz, ra⟩, ⟨h, rfl, rb, h2⟩, rfl, rfl⟩
      | black => exact ⟨h + 1, rfl, ⟨h, rfl, hz, ra⟩, ⟨h, rfl, rb, h2⟩⟩
    · rw [if_neg hr]
      refine ⟨_, _, rfl, by simp [toList, toList_blacken], by simp, ?_⟩
      intro _
      refine ⟨rfl, ?_⟩
      have hr' := RB_blacken_red (color_ne_black.1 hr) h2
      cases c with
      | red => exact ⟨⟨h, rfl, hz, h1⟩, hr', rfl, color_blacken wr⟩
      | black => exact ⟨h + 1, rfl, ⟨h, rfl, hz, h1⟩, hr'⟩

theorem stepR_spec {z : Tree α} {c : Color} {x : E α} {w : Tree α} {h : Nat} (hz : RB z h) (hzc : color z = .black)
    (hw : RB w (h + 1)) (hwc : color w = .black) : StepOK c h (toList w ++ x :: toList z) (stepR z c x w) := by
  obtain ⟨wl, wx, wr, rfl, h1, h2⟩ := RB_black hw hwc
  simp only [stepR]
  by_cases hb : color wr = .black ∧ color wl = .black
  · rw [if_pos hb]
    refine ⟨_, _, rfl, by simp [toList], ?_, by simp⟩
    intro _
    refine ⟨rfl, ?_⟩
    cases c with
    | red => exact ⟨h, rfl, ⟨h1, h2, hb.2, hb.1⟩, hz⟩
    | black => exact ⟨h, rfl, ⟨h1, h2, hb.2, hb.1⟩, hz⟩
  · rw [if_neg hb]
    by_cases hl : color wl = .black
    · rw [if_pos hl]
      have hr : color wr = .red := by rw [← color_ne_black]; intro hh; exact hb ⟨hh, hl⟩
      obtain ⟨a, y, b, rfl, ra, rb, ca, cb⟩ := RB_red h2 hr
      refine ⟨_, _, rfl, by simp [toList, toList_blacken], by simp, ?_⟩
      intro _
      refine ⟨rfl, ?_⟩
      cases c with
      | red => exact ⟨⟨h, rfl, h1, ra⟩, ⟨h, rfl, rb, hz⟩, rfl, rfl⟩
      | black => exact ⟨h + 1, rfl, ⟨h, rfl, h1, ra⟩, ⟨h, rfl, rb, hz⟩⟩
    · rw [if_neg hl]
      refine ⟨_, _, rfl, by simp [toList, toList_blacken], by simp, ?_⟩
      intro _
      refine ⟨rfl, ?_⟩
      have hl' := RB_blacken_red (color_ne_black.1 hl) h1
      cases c with
      | red => exact ⟨hl', ⟨h, rfl, h2, hz⟩, color_blacken wl, rfl⟩
      | black => exact ⟨h + 1, rfl, hl', ⟨h, rfl, h2, hz⟩⟩

theorem fixDelete_spec : ∀ (p : Path α) (z : Tree α) (h : Nat), Short z h → PathOK p (h + 1) →
    ∃ t', fixDelete z p = some t' ∧ color t' = .black ∧ (∃ H, RB t' H) ∧ toList t' = before p ++ toList z ++ after p := by
  intro p
  induction p with
  | nil =>
    intro z h hz _
    refine ⟨_, rfl, color_blacken z, ?_, by simp [toList_blacken, before, after]⟩
    rcases hz with ⟨h1, h2⟩ | ⟨_, h2⟩
    · rw [blacken_of_black h1]; exact ⟨_, h2⟩
    · exact ⟨_, h2⟩
  | cons f p ih =>
    intro z h hz hok
    -- finishing with the whole tree
    have hend : ∀ (q : Path α) (s : Tree α) (k : Nat), RB s k → PathOK q k → (top q = .red → color s = .black) →
        color (blacken (zip s q)) = .black ∧ (∃ H, RB (blacken (zip s q)) H) ∧
        toList (blacken (zip s q)) = before q ++ toList s ++ after q := by
      intro q s k h1 h2 h3
      obtain ⟨z1, z2⟩ := zip_RB q s k h1 h2 h3
      rw [blacken_of_black z1]
      exact ⟨z1, z2, toList_zip q s⟩
    rcases hz with ⟨hzc, hz⟩ | ⟨hzc, hz⟩
    rotate_left
    · -- a red node is blackened
      obtain ⟨z1, z2⟩ := zip_RB (f :: p) (blacken z) (h + 1) hz hok (fun _ => color_blacken z)
      refine ⟨zip (blacken z) (f :: p), ?_, z1, z2, by rw [toList_zip, toList_blacken]⟩
      cases f <;> simp [fixDelete, hzc]
    · obtain ⟨e1, e2, e3⟩ := hok
      cases f with
      | L c x w =>
        simp only [Frame.sib, Frame.color] at e1 e2 e3
        by_cases hw : color w = .red
        · -- red sibling
          have hc : c = .black := by
            rw [← color_ne_red]; intro hh
            have := (e2 hh).1
            rw [hw] at this; cases this
          subst hc
          simp only [if_true] at e3
          obtain ⟨wl, wx, wr, rfl, r1, r2, c1, c2⟩ := RB_red e1 hw
          obtain ⟨t, up, s1, s2, s3, s4⟩ := stepL_spec (c := .red) (x := x) hz hzc r1 c1
          have hq : PathOK (.L .black wx wr :: p) (h + 1) := ⟨r2, by simp [Frame.color], by simpa [Frame.color] using e3⟩
          cases up with
          | true =>
            obtain ⟨s5, s6⟩ := s3 rfl
            simp only [if_true] at s6
            obtain ⟨z1, z2⟩ := zip_RB (.L .black wx wr :: p) (blacken t) (h + 1) s6 hq (by simp [top, Frame.color])
            exact ⟨_, by simp [fixDelete, hzc, s1], z1, z2, by simp [toList_zip, toList_blacken, s2, before, after, toList]⟩
          | false =>
            obtain ⟨s5, s6⟩ := s4 rfl
            simp only [if_true] at s6
            obtain ⟨k2, k3, k4⟩ := hend (.L .black wx wr :: p) t (h + 1) s6 hq (by simp [top, Frame.color])
            exact ⟨_, by simp [fixDelete, hzc, s1], k2, k3, by rw [k4]; simp [s2, before, after, toList]⟩
        · have hw' := color_ne_red.1 hw
          obtain ⟨wl, wx, wr, rfl, r1, r2⟩ := RB_black e1 hw'
          obtain ⟨t, up, s1, s2, s3, s4⟩ := stepL_spec (c := c) (x := x) hz hzc e1 hw'
          have hfd : fixDelete z (.L c x (.node .black wl wx wr) :: p) =
              (stepL z c x (.node .black wl wx wr)).bind fun (t, up) => if up then fixDelete t p else some (blacken (zip t p)) := by
            simp [fixDelete, hzc]
          rw [hfd, s1]
          cases up with
          | true =>
            obtain ⟨s5, s6⟩ := s3 rfl
            simp only [Option.bind_some, if_true]
            cases c with
            | red =>
              simp only [if_true] at s6
              simp only [reduceCtorEq, if_false] at e3
              obtain ⟨t', k1, k2, k3, k4⟩ := ih t h (Or.inr ⟨s5, s6⟩) e3
              exact ⟨t', k1, k2, k3, by rw [k4, s2]; simp [before, after, toList]⟩
            | black =>
              simp only [reduceCtorEq, if_false] at s6
              simp only [if_true] at e3
              obtain ⟨t', k1, k2, k3, k4⟩ := ih t (h + 1) (Or.inl ⟨s5, s6⟩) e3
              exact ⟨t', k1, k2, k3, by rw [k4, s2]; simp [before, after, toList]⟩
          | false =>
            obtain ⟨s5, s6⟩ := s4 rfl
            simp only [Option.bind_some, Bool.false_eq_true, if_false]
            cases c with
            | red =>
              simp only [if_true] at s6
              simp only [reduceCtorEq, if_false] at e3
              obtain ⟨k2, k3, k4⟩ := hend p t (h + 1) s6 e3 (by rw [(e2 rfl).2]; intro hh; cases hh)
              exact ⟨_, rfl, k2, k3, by rw [k4, s2]; simp [before, after, toList]⟩
            | black =>
              simp only [reduceCtorEq, if_false] at s6
              simp only [if_true] at e3
              obtain ⟨k2, k3, k4⟩ := hend p t (h + 2) s6 e3 (fun _ => s5)
              exact ⟨_, rfl, k2, k3, by rw [k4, s2]; simp [before, after, toList]⟩
      | R c w x =>
        simp only [Frame.sib, Frame.color] at e1 e2 e3
        by_cases hw : color w = .red
        · have hc : c = .black := by
            rw [← color_ne_red]; intro hh
            have := (e2 hh).1
            rw [hw] at this; cases this
          subst hc
          simp only [if_true] at e3
          obtain ⟨wl, wx, wr, rfl, r1, r2, c1, c2⟩ := RB_red e1 hw
          obtain ⟨t, up, s1, s2, s3, s4⟩ := stepR_spec (c := .red) (x := x) hz hzc r2 c2
          have hq : PathOK (.R .black wl wx :: p) (h + 1) := ⟨r1, by simp [Frame.color], by simpa [Frame.color] using e3⟩
          cases up with
          | true =>
            obtain ⟨s5, s6⟩ := s3 rfl
            simp only [if_true] at s6
            obtain ⟨z1, z2⟩ := zip_RB (.R .black wl wx :: p) (blacken t) (h + 1) s6 hq (by simp [top, Frame.color])
            exact ⟨_, by simp [fixDelete, hzc, s1], z1, z2, by simp [toList_zip, toList_blacken, s2, before, after, toList]⟩
          | false =>
            obtain ⟨s5, s6⟩ := s4 rfl
            simp only [if_true] at s6
            obtain ⟨k2, k3, k4⟩ := hend (.R .black wl wx :: p) t (h + 1) s6 hq (by simp [top, Frame.color])
            exact ⟨_, by simp [fixDelete, hzc, s1], k2, k3, by rw [k4]; simp [s2, before, after, toList]⟩
        · have hw' := color_ne_red.1 hw
          obtain ⟨wl, wx, wr, rfl, r1, r2⟩ := RB_black e1 hw'
          obtain ⟨t, up, s1, s2, s3, s4⟩ := stepR_spec (c := c) (x := x) hz hzc e1 hw'
          have hfd : fixDelete z (.R c (.node .black wl wx wr) x :: p) =
              (stepR z c x (.node .black wl wx wr)).bind fun (t, up) => if up then fixDelete t p else some (blacken (zip t p)) := by
            simp [fixDelete, hzc]
          rw [hfd, s1]
          cases up with
          | true =>
            obtain ⟨s5, s6⟩ := s3 rfl
            simp only [Option.bind_some, if_true]
            cases c with
            | red =>
              simp only [if_true] at s6
              simp only [reduceCtorEq, if_false] at e3
              obtain ⟨t', k1, k2, k3, k4⟩ := ih t h (Or.inr ⟨s5, s6⟩) e3
              exact ⟨t', k1, k2, k3, by rw [k4, s2]; simp [before, after, toList]⟩
            | black =>
              simp only [reduceCtorEq, if_false] at s6
              simp only [if_true] at e3
              obtain ⟨t', k1, k2, k3, k4⟩ := ih t (h + 1) (Or.inl ⟨s5, s6⟩) e3
              exact ⟨t', k1, k2, k3, by rw [k4, s2]; simp [before, after, toList]⟩
          | false =>
            obtain ⟨s5, s6⟩ := s4 rfl
            simp only [Option.bind_some, Bool.false_eq_true, if_false]
            cases c with
            | red =>
              simp only [if_true] at s6
              simp only [reduceCtorEq, if_false] at e3
              obtain ⟨k2, k3, k4⟩ := hend p t (h + 1) s6 e3 (by rw [(e2 rfl).2]; intro hh; cases hh)
              exact ⟨_, rfl, k2, k3, by rw [k4, s2]; simp [before, after, toList]⟩
            | black =>
              simp only [reduceCtorEq, if_false] at s6
              simp only [if_true] at e3
              obtain ⟨k2, k3, k4⟩ := hend p t (h + 2) s6 e3 (fun _ => s5)
              exact ⟨_, rfl, k2, k3, by rw [k4, s2]; simp [before, after, toList]⟩

/-- A subtree in its surroundings: colours, heights. -/
def Fits (t : Tree α) (p : Path α) : Prop := ∃ h, RB t h ∧ PathOK p h ∧ (top p = .red → color t = .black)

theorem Fits.left {c : Color} {l r : Tree α} {x : E α} {p : Path α} (h : Fits (.node c l x r) p) : Fits l (.L c x r :: p) := by
  obtain ⟨n, h1, h2, h3⟩ := h
  cases c with
  | red =>
    obtain ⟨r1, r2, r3, r4⟩ := h1
    refine ⟨n, r1, ⟨r2, fun _ => ⟨r4, ?_⟩, by simpa [Frame.color] using h2⟩, fun _ => r3⟩
    rw [← color_ne_red]; intro hh; have := h3 hh; simp [color] at this
  | black =>
    obtain ⟨n', rfl, r1, r2⟩ := h1
    exact ⟨n', r1, ⟨r2, by simp [Frame.color], by simpa [Frame.color] using h2⟩, by simp [top, Frame.color]⟩

theorem Fits.right {c : Color} {l r : Tree α} {x : E α} {p : Path α} (h : Fits (.node c l x r) p) : Fits r (.R c l x :: p) := by
  obtain ⟨n, h1, h2, h3⟩ := h
  cases c with
  | red =>
    obtain ⟨r1, r2, r3, r4⟩ := h1
    refine ⟨n, r2, ⟨r1, fun _ => ⟨r3, ?_⟩, by simpa [Frame.color] using h2⟩, fun _ => r4⟩
    rw [← color_ne_red]; intro hh; have := h3 hh; simp [color] at this
  | black =>
    obtain ⟨n', rfl, r1, r2⟩ := h1
    exact ⟨n', r2, ⟨r1, by simp [Frame.color], by simpa [Frame.color] using h2⟩, by simp [top, Frame.color]⟩

theorem Fits.zip {t : Tree α} {p : Path α} (h : Fits t p) : color (zip t p) = .black ∧ ∃ H, RB (zip t p) H := by
  obtain ⟨n, h1, h2, h3⟩ := h
  exact zip_RB p t n h1 h2 h3

/-- Changing the element at a node. -/
theorem Fits.replace {c : Color} {l r : Tree α} {x y : E α} {p : Path α} (h : Fits (.node c l x r) p) : Fits (.node c l y r) p := by
  obtain ⟨n, h1, h2, h3⟩ := h
  cases c with
  | red => exact ⟨n, h1, h2, h3⟩
  | black => exact ⟨n, h1, h2, h3⟩

theorem findMin_spec : ∀ (t : Tree α) (p : Path α), t ≠ .leaf → Fits t p →
    ∃ c y z q, findMin t p = some (c, y, z, q) ∧ Fits (.node c .leaf y z) q ∧
      before q = before p ∧ y :: toList z ++ after q = toList t ++ after p := by
  intro t
  induction t with
  | leaf => intro _ h; exact absurd rfl h
  | node c l x r ihl ihr =>
    intro p _ hf
    cases l with
    | leaf => exact ⟨c, x, r, p, by simp [findMin], hf, rfl, by simp [toList]⟩
    | node lc ll lx lr =>
      obtain ⟨c', y, z, q, e1, e2, e3, e4⟩ := ihl (.L c x r :: p) (by simp) hf.left
      exact ⟨c', y, z, q, by simp [findMin, e1], e2, by simp [e3, before], by rw [e4]; simp [toList, after]⟩

theorem findMin_append : ∀ (t : Tree α) (p p0 : Path α),
    findMin t (p ++ p0) = (findMin t p).map fun (c, y, z, q) => (c, y, z, q ++ p0) := by
  intro t
  induction t with
  | leaf => intro p p0; simp [findMin]
  | node c l x r ihl ihr =>
    intro p p0
    cases l with
    | leaf => simp [findMin]
    | node lc ll lx lr => simpa [findMin] using ihl (.L c x r :: p) p0

theorem fits_path_replace {c : Color} {l : Tree α} {x y : E α} {p : Path α} : ∀ (q : Path α) (h : Nat),
    PathOK (q ++ .R c l x :: p) h → PathOK (q ++ .R c l y :: p) h ∧ top (q ++ .R c l y :: p) = top (q ++ .R c l x :: p) := by
  intro q
  induction q with
  | nil => intro h hh; exact ⟨hh, rfl⟩
  | cons f q ih =>
    intro h hh
    obtain ⟨h1, h2, h3⟩ := hh
    obtain ⟨i1, i2⟩ := ih _ h3
    exact ⟨⟨h1, fun hc => ⟨(h2 hc).1, by show top (q ++ Frame.R c l y :: p) = _; rw [i2]; exact (h2 hc).2⟩, i1⟩, rfl⟩

theorem before_append (p0 : Path α) : ∀ q : Path α, before (q ++ p0) = before p0 ++ before q := by
  intro q
  induction q with
  | nil => simp [before]
  | cons f q ih => cases f <;> simp [before, ih]

theorem after_append (p0 : Path α) : ∀ q : Path α, after (q ++ p0) = after q ++ after p0 := by
  intro q
  induction q with
  | nil => simp [after]
  | cons f q ih => cases f <;> simp [after, ih]

theorem cut_spec {c : Color} {y : E α} {z : Tree α} {q : Path α} (hf : Fits (.node c .leaf y z) q) :
    ∃ t', (if c = .black then fixDelete z q else some (zip z q)) = some t' ∧ color t' = .black ∧ (∃ H, RB t' H) ∧
      toList t' = before q ++ toList z ++ after q := by
  obtain ⟨n, h1, h2, h3⟩ := hf
  cases c with
  | red =>
    obtain ⟨r1, r2, r3, r4⟩ := h1
    obtain ⟨z1, z2⟩ := zip_RB q z n r2 h2 (fun _ => r4)
    exact ⟨_, by simp, z1, z2, toList_zip q z⟩
  | black =>
    obtain ⟨n', rfl, r1, r2⟩ := h1
    simp only [if_true]
    exact fixDelete_spec q z n' r2.short h2

theorem cut_spec' {c : Color} {y : E α} {z : Tree α} {q : Path α} (hf : Fits (.node c z y .leaf) q) :
    ∃ t', (if c = .black then fixDelete z q else some (zip z q)) = some t' ∧ color t' = .black ∧ (∃ H, RB t' H) ∧
      toList t' = before q ++ toList z ++ after q := by
  obtain ⟨n, h1, h2, h3⟩ := hf
  cases c with
  | red =>
    obtain ⟨r1, r2, r3, r4⟩ := h1
    obtain ⟨z1, z2⟩ := zip_RB q z n r1 h2 (fun _ => r3)
    exact ⟨_, by simp, z1, z2, toList_zip q z⟩
  | black =>
    obtain ⟨n', rfl, r1, r2⟩ := h1
    simp only [if_true]
    exact fixDelete_spec q z n' r1.short h2

/-- Taking a node out of the tree proper. -/
theorem removeTree_spec {c : Color} {l r : Tree α} {x : E α} {p : Path α} (hf : Fits (.node c l x r) p) :
    ∃ t', removeTree c l r p = some t' ∧ color t' = .black ∧ (∃ H, RB t' H) ∧
      toList t' = before p ++ toList l ++ toList r ++ after p := by
  cases l with
  | leaf =>
    obtain ⟨t', h1, h2, h3, h4⟩ := cut_spec hf
    exact ⟨t', by simpa [removeTree] using h1, h2, h3, by simpa [toList] using h4⟩
  | node lc ll lx lr =>
    cases r with
    | leaf =>
      obtain ⟨t', h1, h2, h3, h4⟩ := cut_spec' hf
      exact ⟨t', by simpa [removeTree] using h1, h2, h3, by simpa [toList] using h4⟩
    | node rc rl rx rr =>
      obtain ⟨yc, y, z, q', e1, e2, e3, e4⟩ := findMin_spec (.node rc rl rx rr) _ (by simp) hf.right
      have hq := findMin_append (.node rc rl rx rr) [] (.R c (.node lc ll lx lr) x :: p)
      rw [List.nil_append, e1] at hq
      obtain ⟨⟨yc', y', z', q⟩, f1, f2⟩ := Option.map_eq_some_iff.1 hq.symm
      simp only [Prod.mk.injEq] at f2
      obtain ⟨rfl, rfl, rfl, rfl⟩ := f2
      have hf' : Fits (.node yc' .leaf y' z') (q ++ .R c (.node lc ll lx lr) y' :: p) := by
        obtain ⟨n, g1, g2, g3⟩ := e2
        obtain ⟨i1, i2⟩ := fits_path_replace (y := y') q n g2
        exact ⟨n, g1, i1, by rw [i2]; exact g3⟩
      obtain ⟨t', h1, h2, h3, h4⟩ := cut_spec hf'
      refine ⟨t', by simpa [removeTree, f1] using h1, h2, h3, ?_⟩
      rw [h4]
      rw [before_append, after_append] at *
      have hb : before q = [] := by simpa using e3
      simp only [hb, List.append_nil, before, after] at e4 ⊢
      simp only [List.append_assoc, List.singleton_append, List.cons_append, List.nil_append] at e4 ⊢
      rw [e4]

theorem locate_spec (i : Nat) : ∀ (t : Tree α) (p : Path α), Fits t p → (∃ x ∈ toList t, x.id = i) →
    ∃ c l x r q, locate i t p = some (c, l, x, r, q) ∧ x.id = i ∧ Fits (.node c l x r) q ∧ zip (.node c l x r) q = zip t p := by
  intro t
  induction t with
  | leaf => intro p _ ⟨x, hx, _⟩; simp [toList] at hx
  | node c l x r ihl ihr =>
    intro p hf ⟨y, hy, hid⟩
    unfold locate
    by_cases hx : x.id = i
    · exact ⟨c, l, x, r, p, by rw [if_pos hx], hx, hf, rfl⟩
    · rw [if_neg hx]
      by_cases hl : ∃ x ∈ toList l, x.id = i
      · obtain ⟨c', l', x', r', q, e1, e2, e3, e4⟩ := ihl (.L c x r :: p) hf.left hl
        exact ⟨c', l', x', r', q, by rw [e1]; rfl, e2, e3, by rw [e4]; rfl⟩
      · have hr : ∃ x ∈ toList r, x.id = i := by
          simp only [toList, List.mem_append, List.mem_cons] at hy
          rcases hy with hy | rfl | hy
          · exact absurd ⟨y, hy, hid⟩ hl
          · exact absurd hid hx
          · exact ⟨y, hy, hid⟩
        obtain ⟨c', l', x', r', q, e1, e2, e3, e4⟩ := ihr (.R c l x :: p) hf.right hr
        have hnone : ∀ (t : Tree α) (p : Path α), (¬ ∃ x ∈ toList t, x.id = i) → locate i t p = none := by
          intro t
          induction t with
          | leaf => intro _ _; rfl
          | node c l x r ih1 ih2 =>
            intro p hno
            unfold locate
            rw [if_neg (fun h => hno ⟨x, by simp [toList], h⟩),
              ih1 _ (fun ⟨y, hy, h⟩ => hno ⟨y, by simp [toList, hy], h⟩),
              ih2 _ (fun ⟨y, hy, h⟩ => hno ⟨y, by simp [toList, hy], h⟩)]
            rfl
        exact ⟨c', l', x', r', q, by rw [hnone l _ hl, e1]; rfl, e2, e3, by rw [e4]; rfl⟩

end Verif.TRB
