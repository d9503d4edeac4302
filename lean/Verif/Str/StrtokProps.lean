import Verif.Str.Strtok

/-!
# The tokeniser (C67)
-/

namespace Verif.Str

/-- The maximal runs of characters of `w` that are not in `d`, in order. -/
inductive Tokens (d : List Nat) : List Nat → List (List Nat) → Prop
  | done {w} : (∀ c ∈ w, c ∈ d) → Tokens d w []
  | token {pre t post ts} : (∀ c ∈ pre, c ∈ d) → t ≠ [] → (∀ c ∈ t, c ∉ d) → (∀ c ∈ post.head?, c ∈ d) → Tokens d post ts →
      Tokens d (pre ++ t ++ post) (t :: ts)

theorem Tokens.cons {d w : List Nat} {c : Nat} (hc : c ∈ d) {ts : List (List Nat)} (h : Tokens d w ts) : Tokens d (c :: w) ts := by
  cases h with
  | done h => exact .done fun x hx => (List.mem_cons.1 hx).elim (fun e => e ▸ hc) (h x)
  | @token pre t post ts h1 h2 h3 h4 h5 =>
    have := Tokens.token (pre := c :: pre) (fun x hx => (List.mem_cons.1 hx).elim (fun e => e ▸ hc) (h1 x)) h2 h3 h4 h5
    simpa using this

theorem isDelim_spec {d : List Nat} (hd : ∀ c ∈ d, c ≠ 0) (c : Nat) (r : List Nat) : isDelim (d ++ 0 :: r) c = some (decide (c ∈ d)) := by
  induction d with
  | nil => simp [isDelim]
  | cons x d ih =>
    have hx := hd x List.mem_cons_self
    simp only [List.cons_append, isDelim, if_pos hx]
    by_cases h : c = x
    · simp [h]
    · rw [if_neg h, ih fun c hc => hd c (List.mem_cons_of_mem _ hc)]
      simp [h]

theorem isEnd_spec {d : List Nat} (hd : ∀ c ∈ d, c ≠ 0) (c : Nat) (r : List Nat) : isEnd (d ++ 0 :: r) c = some (decide (c ∈ d ∨ c = 0)) := by
  induction d with
  | nil =>
    simp only [List.nil_append, isEnd]
    by_cases h : 0 = c
    · simp [← h]
    · simp [h, Ne.symm h]
  | cons x d ih =>
    have hx := hd x List.mem_cons_self
    simp only [List.cons_append, isEnd]
    by_cases h : x = c
    · simp [h]
    · rw [if_neg h, if_pos hx, ih fun c hc => hd c (List.mem_cons_of_mem _ hc)]
      simp [Ne.symm h]

theorem drop_head {buf : List Nat} {s c : Nat} {m : List Nat} (h : buf.drop s = c :: m) : ∃ hl : s < buf.length, buf[s] = c ∧ buf.drop (s + 1) = m := by
  have hl : s < buf.length := by
    refine Nat.not_le.1 fun hn => ?_
    rw [List.drop_eq_nil_of_le hn] at h
    cases h
  rw [List.drop_eq_getElem_cons hl] at h
  exact ⟨hl, (List.cons.inj h).1, (List.cons.inj h).2⟩

theorem skip_spec {d : List Nat} (hd : ∀ c ∈ d, c ≠ 0) (r : List Nat) : ∀ {pre : List Nat} {buf : List Nat} {s c : Nat} {m : List Nat},
    buf.drop s = pre ++ c :: m → (∀ x ∈ pre, x ∈ d) → c ∉ d → skip buf (d ++ 0 :: r) s = some (c, s + pre.length + 1) := by
  intro pre
  induction pre with
  | nil =>
    intro buf s c m h _ hc
    obtain ⟨hl, h1, _⟩ := drop_head h
    rw [skip, dif_pos hl, isDelim_spec hd, Option.bind_some, h1]
    simp [hc]
  | cons x pre ih =>
    intro buf s c m h hp hc
    obtain ⟨hl, h1, h2⟩ := drop_head h
    have hx : x ∈ d := hp x List.mem_cons_self
    rw [skip, dif_pos hl, isDelim_spec hd, Option.bind_some, h1]
    simp only [hx, decide_true, if_true]
    rw [ih h2 (fun x hx => hp x (List.mem_cons_of_mem _ hx)) hc]
    simp only [List.length_cons]
    congr 2
    omega

theorem scan_spec {d : List Nat} (hd : ∀ c ∈ d, c ≠ 0) (r : List Nat) : ∀ {t : List Nat} {buf : List Nat} {s c : Nat} {m : List Nat},
    buf.drop s = t ++ c :: m → (∀ x ∈ t, x ∉ d ∧ x ≠ 0) → (c ∈ d ∨ c = 0) →
    scan buf (d ++ 0 :: r) s = some (if c = 0 then (buf, none) else (buf.set (s + t.length) 0, some (s + t.length + 1))) := by
  intro t
  induction t with
  | nil =>
    intro buf s c m h _ hc
    obtain ⟨hl, h1, _⟩ := drop_head h
    rw [scan, dif_pos hl, isEnd_spec hd, Option.bind_some]
    simp only [h1, hc, decide_true, if_true, List.length_nil, Nat.add_zero]
    split <;> rfl
  | cons x t ih =>
    intro buf s c m h ht hc
    obtain ⟨hl, h1, h2⟩ := drop_head h
    obtain ⟨hx1, hx2⟩ := ht x List.mem_cons_self
    rw [scan, dif_pos hl, isEnd_spec hd, Option.bind_some, h1]
    simp only [hx1, hx2, or_self, decide_false, Bool.false_eq_true, if_false]
    rw [ih h2 (fun x hx => ht x (List.mem_cons_of_mem _ hx)) hc]
    simp only [List.length_cons]
    have e : s + 1 + t.length = s + (t.length + 1) := by omega
    rw [e]

theorem cstr_of_drop {buf : List Nat} {p : Nat} {t m : List Nat} (h : buf.drop p = t ++ 0 :: m) (ht : ∀ x ∈ t, x ≠ 0) : cstr buf p = t := by
  unfold cstr
  rw [h, List.takeWhile_append_of_pos (by simpa using ht)]
  simp

/-- Buffers that agree up to a position. -/
theorem drop_of_take {a b : List Nat} {q p : Nat} {t m : List Nat} (hab : a.take q = b.take q) (h : a.drop p = t ++ 0 :: m) (hq : p + t.length + 1 ≤ q) :
    ∃ m', b.drop p = t ++ 0 :: m' := by
  have h1 : (a.drop p).take (q - p) = (b.drop p).take (q - p) := by rw [← List.drop_take, ← List.drop_take, hab]
  rw [h] at h1
  refine ⟨(b.drop p).drop (t.length + 1), ?_⟩
  have h2 := congrArg (List.take (t.length + 1)) h1
  rw [List.take_take, List.take_take, Nat.min_eq_left (by omega)] at h2
  have h3 : (t ++ 0 :: m).take (t.length + 1) = t ++ [0] := by
    rw [List.take_append, List.take_of_length_le (by omega)]
    simp
  rw [h3] at h2
  conv => lhs; rw [← List.take_append_drop (t.length + 1) (b.drop p), ← h2]
  simp

theorem mem_takeWhile {P : Nat → Bool} {x : Nat} : ∀ {l : List Nat}, x ∈ l.takeWhile P → P x = true
  | [], h => nomatch h
  | y :: l, h => by
    rw [List.takeWhile_cons] at h
    split at h
    · next hy =>
      rcases List.mem_cons.1 h with rfl | h
      · exact hy
      · exact mem_takeWhile h
    · cases h

theorem tokenize_null (delim : List Nat) {k : Nat} (hk : 0 < k) (buf : List Nat) : tokenize delim k buf none none = some ([], buf, none) := by
  cases k with
  | zero => omega
  | succ k => rfl

theorem tokenize_spec {d : List Nat} (hd : ∀ c ∈ d, c ≠ 0) (r : List Nat) : ∀ {n : Nat} {k : Nat} {buf w m : List Nat} {p : Nat} (s lasts : Option Nat), w.length ≤ n → n < k →
    s.or lasts = some p → buf.drop p = w ++ 0 :: m → (∀ c ∈ w, c ≠ 0) →
    ∃ ps buf' ts, tokenize (d ++ 0 :: r) k buf s lasts = some (ps, buf', none) ∧ Tokens d w ts ∧ ps.map (cstr buf') = ts ∧ buf'.length = buf.length ∧
      buf'.take p = buf.take p ∧ (∀ q ∈ ps, p ≤ q) := by
  intro n
  induction n using Nat.strongRecOn with
  | ind n ih =>
    intro k buf w m p s lasts hn hk hs hb hw
    cases k with
    | zero => omega
    | succ k =>
    -- the leading delimiters
    have hsplit : w = w.takeWhile (· ∈ d) ++ w.dropWhile (· ∈ d) := (List.takeWhile_append_dropWhile ..).symm
    have hpre : ∀ x ∈ w.takeWhile (· ∈ d), x ∈ d := fun x hx => by simpa using mem_takeWhile hx
    cases hr : w.dropWhile (· ∈ d) with
    | nil =>
      rw [hr, List.append_nil] at hsplit
      have hall : ∀ c ∈ w, c ∈ d := fun c hc => hpre c (hsplit ▸ hc)
      refine ⟨[], buf, [], ?_, .done hall, rfl, rfl, rfl, fun q hq => nomatch hq⟩
      have e := skip_spec hd r hb hall (fun h0 => hd 0 h0 rfl)
      simp only [tokenize, strtok, hs, e, Option.bind_some, if_true]
    | cons c0 rest =>
      have hc0 : c0 ∉ d := by
        have := List.head?_dropWhile_not (p := fun c => decide (c ∈ d)) (l := w)
        rw [hr] at this
        simpa using this
      generalize hpd : w.takeWhile (· ∈ d) = pre at hsplit hpre
      rw [hr] at hsplit
      -- the token
      have hsplit2 : rest = rest.takeWhile (· ∉ d) ++ rest.dropWhile (· ∉ d) := (List.takeWhile_append_dropWhile ..).symm
      have ht : ∀ x ∈ rest.takeWhile (· ∉ d), x ∉ d := fun x hx => by simpa using mem_takeWhile hx
      generalize rest.takeWhile (· ∉ d) = t at hsplit2 ht
      have hpost : ∀ c ∈ (rest.dropWhile (· ∉ d)).head?, c ∈ d := by
        intro c hc
        have := List.head?_dropWhile_not (p := fun c => decide (c ∉ d)) (l := rest)
        rw [hc] at this
        simpa using this
      generalize rest.dropWhile (· ∉ d) = post at hsplit2 hpost
      subst hsplit2
      have hww : w = pre ++ (c0 :: t) ++ post := by rw [hsplit]; simp
      have hw0 : ∀ x ∈ c0 :: t, x ≠ 0 := fun x hx => hw x (by rw [hww]; exact List.mem_append_left _ (List.mem_append_right _ hx))
      have e1 : skip buf (d ++ 0 :: r) p = some (c0, p + pre.length + 1) :=
        skip_spec hd r (m := t ++ post ++ 0 :: m) (by rw [hb, hww]; simp) hpre hc0
      have hdrop : buf.drop (p + pre.length) = (c0 :: t) ++ (post ++ 0 :: m) := by
        rw [← List.drop_drop, hb, hww]
        simp
      have hdrop1 : buf.drop (p + pre.length + 1) = t ++ (post ++ 0 :: m) := (drop_head hdrop).2.2
      have htt : ∀ x ∈ t, x ∉ d ∧ x ≠ 0 := fun x hx => ⟨ht x hx, hw0 x (List.mem_cons_of_mem _ hx)⟩
      have hct : ∀ x ∈ c0 :: t, x ∉ d := fun x hx => (List.mem_cons.1 hx).elim (fun e => e ▸ hc0) (ht x)
      cases post with
      | nil =>
        have e2 := scan_spec hd r (c := 0) (m := m) hdrop1 htt (.inr rfl)
        refine ⟨[p + pre.length], buf, [c0 :: t], ?_, ?_, ?_, rfl, rfl, fun q hq => ?_⟩
        · simp only [tokenize, strtok, hs, e1, Option.bind_some, if_neg (hw0 c0 List.mem_cons_self), e2, if_true, Option.map_some]
          rw [tokenize_null _ (by rw [hww] at hn; simp at hn; omega)]
          rfl
        · rw [hww]
          exact .token hpre (by simp) hct (fun c hc => nomatch hc) (.done fun c hc => nomatch hc)
        · simp only [List.map_cons, List.map_nil, cstr_of_drop hdrop hw0]
        · cases List.mem_singleton.1 hq
          omega
      | cons c post =>
        have hcd : c ∈ d := hpost c rfl
        have hcn := hd c hcd
        have e2 := scan_spec hd r (c := c) (m := post ++ 0 :: m) (by simpa using hdrop1) htt (.inl hcd)
        rw [if_neg hcn] at e2
        have hlen : p + pre.length + 1 + t.length < buf.length := by
          have := congrArg List.length hdrop1
          simp at this
          omega
        have hbuf : (buf.set (p + pre.length + 1 + t.length) 0).drop (p + pre.length + 1 + t.length + 1) = post ++ 0 :: m := by
          rw [List.drop_set_of_lt (by omega), show p + pre.length + 1 + t.length + 1 = p + pre.length + 1 + (t.length + 1) from rfl, ← List.drop_drop, hdrop1]
          simp
        obtain ⟨ps, buf', ts, g1, g2, g3, g4, g5, g6⟩ := ih post.length (by rw [hww] at hn; simp at hn; omega) (k := k) (w := post)
          none (some (p + pre.length + 1 + t.length + 1)) (Nat.le_refl _) (by rw [hww] at hn; simp at hn; omega) rfl hbuf
          (fun x hx => hw x (by rw [hww]; simp [hx]))
        have hd' : (buf.set (p + pre.length + 1 + t.length) 0).drop (p + pre.length) = (c0 :: t) ++ 0 :: (post ++ 0 :: m) := by
          rw [List.drop_set, if_neg (by omega), hdrop, show p + pre.length + 1 + t.length - (p + pre.length) = (c0 :: t).length by simp; omega]
          rw [List.set_append_right _ _ (Nat.le_refl _), Nat.sub_self]
          rfl
        obtain ⟨m', hm'⟩ := drop_of_take g5.symm hd' (by simp; omega)
        refine ⟨(p + pre.length) :: ps, buf', (c0 :: t) :: ts, ?_, ?_, ?_, by rw [g4]; simp, ?_, fun q hq => ?_⟩
        · simp only [tokenize, strtok, hs, e1, Option.bind_some, if_neg (hw0 c0 List.mem_cons_self), e2, Option.map_some, g1]
          rfl
        · rw [hww]
          exact .token hpre (by simp) hct (fun x hx => by cases hx; exact hcd) (g2.cons hcd)
        · rw [List.map_cons, cstr_of_drop hm' hw0, g3]
        · have : (buf'.take (p + pre.length + 1 + t.length + 1)).take p = (buf.set (p + pre.length + 1 + t.length) 0 |>.take (p + pre.length + 1 + t.length + 1)).take p := by rw [g5]
          rw [List.take_take, List.take_take, Nat.min_eq_left (by omega), List.take_set_of_le (by omega)] at this
          exact this
        · rcases List.mem_cons.1 hq with rfl | hq
          · omega
          · have := g6 q hq
            omega

/-- **C67**: splitting a string (any characters but 0, followed by 0) with any delimiters: repeated calls return, in order, positions at which (when all is done, and
so also at the time) the C strings are exactly the maximal runs of non-delimiters; then null, and null again. -/
theorem C67_tokens (w d rest drest : List Nat) (hw : ∀ c ∈ w, c ≠ 0) (hd : ∀ c ∈ d, c ≠ 0) (lasts : Option Nat) (k : Nat) (hk : w.length < k) :
    ∃ ps buf', tokenize (d ++ 0 :: drest) k (w ++ 0 :: rest) (some 0) lasts = some (ps, buf', none) ∧ Tokens d w (ps.map (cstr buf')) ∧
      strtok buf' (d ++ 0 :: drest) none none = some (buf', none, none) := by
  obtain ⟨ps, buf', ts, h1, h2, h3, _⟩ := tokenize_spec hd drest (buf := w ++ 0 :: rest) (w := w) (m := rest) (p := 0) (some 0) lasts (Nat.le_refl _) hk rfl rfl hw
  exact ⟨ps, buf', h1, h3 ▸ h2, rfl⟩

/-- The runs are determined by the string, so the specification leaves no choice. -/
theorem C67_unique {d w : List Nat} {ts us : List (List Nat)} (h : Tokens d w ts) (h' : Tokens d w us) : ts = us := by
  induction h generalizing us with
  | @done w h =>
    cases h' with
    | done => rfl
    | @token pre t post us h1 h2 h3 h4 h5 =>
      obtain ⟨x, hx⟩ := List.exists_mem_of_ne_nil t h2
      exact absurd (h x (by simp [hx])) (h3 x hx)
  | @token pre t post ts h1 h2 h3 h4 h5 ih =>
    generalize hw : pre ++ t ++ post = w at h'
    cases h' with
    | done h =>
      obtain ⟨x, hx⟩ := List.exists_mem_of_ne_nil t h2
      exact absurd (h x (by rw [← hw]; simp [hx])) (h3 x hx)
    | @token pre' t' post' us g1 g2 g3 g4 g5 =>
      -- both prefixes are all the leading delimiters, both tokens all that follows
      have key : ∀ (p q : List Nat → Prop) (a b a' b' : List Nat) (P : Nat → Prop), (∀ c ∈ a, P c) → (∀ c ∈ a', P c) → (∀ c ∈ b.head?, ¬ P c) → (∀ c ∈ b'.head?, ¬ P c) →
          a ++ b = a' ++ b' → a = a' ∧ b = b' := by
        intro _ _ a
        induction a with
        | nil =>
          intro b a' b' P _ h2 h3 _ e
          cases a' with
          | nil => exact ⟨rfl, e⟩
          | cons x a' =>
            simp at e
            subst e
            exact absurd (h2 x List.mem_cons_self) (h3 x rfl)
        | cons x a iha =>
          intro b a' b' P h1 h2 h3 h4 e
          cases a' with
          | nil =>
            simp at e
            subst e
            exact absurd (h1 x List.mem_cons_self) (h4 x rfl)
          | cons y a' =>
            simp at e
            obtain ⟨rfl, e⟩ := e
            obtain ⟨e1, e2⟩ := iha b a' b' P (fun c hc => h1 c (List.mem_cons_of_mem _ hc)) (fun c hc => h2 c (List.mem_cons_of_mem _ hc)) h3 h4 e
            exact ⟨by rw [e1], e2⟩
      have hh : ∀ (t post : List Nat), t ≠ [] → (∀ c ∈ t, c ∉ d) → ∀ c ∈ (t ++ post).head?, ¬ c ∈ d := by
        intro t post hne ht c hc
        cases t with
        | nil => exact absurd rfl hne
        | cons x t =>
          have e : x = c := by simpa using hc
          exact ht c (e ▸ List.mem_cons_self)
      obtain ⟨e1, e2⟩ := key (fun _ => True) (fun _ => True) pre (t ++ post) pre' (t' ++ post') (· ∈ d) h1 g1 (hh t post h2 h3) (hh t' post' g2 g3) (by simpa using hw)
      obtain ⟨e3, e4⟩ := key (fun _ => True) (fun _ => True) t post t' post' (· ∉ d) h3 g3 (fun c hc h => h (h4 c hc)) (fun c hc h => h (g4 c hc)) e2
      subst e3 e4
      rw [ih g5]

/-- Splitting ",ab,,c" at commas. -/
example : tokenize [44, 0] 10 ([44, 97, 98, 44, 44, 99] ++ [0]) (some 0) none = some ([1, 5], [44, 97, 98, 0, 44, 99, 0], none) ∧
    Tokens [44] [44, 97, 98, 44, 44, 99] [[97, 98], [99]] := by
  refine ⟨by decide +kernel, ?_⟩
  exact .token (pre := [44]) (t := [97, 98]) (post := [44, 44, 99]) (by decide) (by decide) (by decide) (by decide)
    (.token (pre := [44, 44]) (t := [99]) (post := []) (by decide) (by decide) (by decide) (by decide) (.done (by decide)))

end Verif.Str
