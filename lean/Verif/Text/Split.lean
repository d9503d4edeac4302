import Verif.Text.Basic

/-!
# Splitting strings
-/

namespace Verif.Text

/-- The text `p0 d1 p1 d2 p2 …` of pieces and delimiters. -/
def joined (p : List Int) (ds : List (Int × List Int)) : List Int := p ++ ds.flatMap fun x => x.1 :: x.2

theorem takeWhile_append {α : Type} {f : α → Bool} {a : List α} {c : α} {r : List α} (ha : ∀ x ∈ a, f x = true) (hc : f c = false) :
    (a ++ c :: r).takeWhile f = a ∧ (a ++ c :: r).dropWhile f = c :: r := by
  induction a with
  | nil => simp [hc]
  | cons x a ih =>
    have := ih fun y hy => ha y (by simp [hy])
    simp [ha x (by simp), this.1, this.2]

theorem takeWhile_all {α : Type} {f : α → Bool} {a : List α} (ha : ∀ x ∈ a, f x = true) : a.takeWhile f = a ∧ a.dropWhile f = [] := by
  induction a with
  | nil => simp
  | cons x a ih =>
    have := ih fun y hy => ha y (by simp [hy])
    simp [ha x (by simp), this.1, this.2]

theorem tokens_none {delim : Int → Bool} {s : List Int} (h : strtok delim s = none) : tokens delim s = [] := by
  rw [tokens]; split
  · rfl
  · rename_i h'; rw [h] at h'; cases h'

theorem tokens_some {delim : Int → Bool} {s t r : List Int} (h : strtok delim s = some (t, r)) : tokens delim s = t :: tokens delim r := by
  rw [tokens]; split
  · rename_i h'; rw [h] at h'; cases h'
  · rename_i h'; rw [h] at h'; cases h'; rfl

theorem strtok_cons {delim : Int → Bool} {c : Int} {r : List Int} (hc : delim c = false) :
    strtok delim (c :: r) = some ((c :: r).takeWhile fun c => !delim c, ((c :: r).dropWhile fun c => !delim c).drop 1) := by
  unfold strtok
  rw [List.dropWhile_cons, if_neg (by simp [hc])]

theorem tokens_delim {delim : Int → Bool} {c : Int} {r : List Int} (hc : delim c = true) : tokens delim (c :: r) = tokens delim r := by
  have : strtok delim (c :: r) = strtok delim r := by unfold strtok; rw [List.dropWhile_cons, if_pos hc]
  cases h : strtok delim r with
  | none => rw [tokens_none h, tokens_none (this.trans h)]
  | some x => rw [tokens_some (t := x.1) (r := x.2) h, tokens_some (t := x.1) (r := x.2) (this.trans h)]

theorem tokens_joined (delim : Int → Bool) (ds : List (Int × List Int)) : ∀ p : List Int, (∀ c ∈ p, delim c = false) →
    (∀ x ∈ ds, delim x.1 = true ∧ ∀ c ∈ x.2, delim c = false) →
    tokens delim (joined p ds) = (p :: ds.map (·.2)).filter (· ≠ []) := by
  induction ds with
  | nil =>
    intro p hp _
    simp only [joined, List.flatMap_nil, List.append_nil]
    cases p with
    | nil => rw [tokens_none rfl]; simp
    | cons c p =>
      have h1 := takeWhile_all (f := fun c => !delim c) (a := c :: p) (fun x hx => by simp [hp x hx])
      have h2 := strtok_cons (r := p) (hp c (by simp))
      rw [h1.1, h1.2] at h2
      rw [tokens_some h2, List.drop_nil, tokens_none rfl]
      simp
  | cons d ds ih =>
    intro p hp h
    obtain ⟨d, q⟩ := d
    obtain ⟨hd, hq⟩ := h (d, q) (by simp)
    have ih := ih q hq fun x hx => h x (by simp [hx])
    have hj : joined p ((d, q) :: ds) = p ++ d :: joined q ds := by simp [joined]
    rw [hj]
    cases p with
    | nil =>
      rw [List.nil_append, tokens_delim hd, ih]
      simp
    | cons c p =>
      have h1 := takeWhile_append (f := fun c => !delim c) (a := c :: p) (c := d) (r := joined q ds)
        (fun x hx => by simp [hp x hx]) (by simp [hd])
      have h2 := strtok_cons (r := p ++ d :: joined q ds) (hp c (by simp))
      rw [← List.cons_append, h1.1, h1.2] at h2
      rw [tokens_some h2]
      simp [ih]

theorem explodeNull_at (ts : List (List Int)) : ∀ pre rest : List Int, (∀ t ∈ ts, t ≠ [] ∧ 0 ∉ t) →
    explodeNull (pre ++ (ts.flatMap (fun t => t ++ [0]) ++ 0 :: rest)) pre.length = some ts := by
  induction ts with
  | nil =>
    intro pre rest _
    rw [List.flatMap_nil, List.nil_append, explodeNull, dif_pos (lt_mid rfl), getElem_mid rfl, if_pos rfl]
  | cons t ts ih =>
    intro pre rest h
    obtain ⟨ht, h0⟩ := h t (by simp)
    have hm : pre ++ ((t :: ts).flatMap (fun t => t ++ [0]) ++ 0 :: rest) = pre ++ (t ++ 0 :: (ts.flatMap (fun t => t ++ [0]) ++ 0 :: rest)) := by simp
    rw [hm]
    have hl := len_at t pre (ts.flatMap (fun t => t ++ [0]) ++ 0 :: rest) h0
    have hi := ih (pre ++ t ++ [0]) rest fun x hx => h x (by simp [hx])
    simp only [List.append_assoc, List.singleton_append, List.length_append, List.length_singleton] at hi
    cases t with
    | nil => exact absurd rfl ht
    | cons c t =>
      have hc : c ≠ 0 := fun e => h0 (by simp [e])
      rw [List.cons_append] at hl hi ⊢
      rw [explodeNull, dif_pos (lt_mid rfl), getElem_mid rfl, if_neg hc, hl, Option.bind_some,
        show pre.length + (c :: t).length + 1 = pre.length + ((c :: t).length + 1) by omega, hi]
      simp

/-- Looking for a piece: the first is at the pointer, the others follow behind a delimiter. -/
theorem chunk_at (d : Int) (hd : d ≠ 0) (ps : List (List Int)) : ∀ (i : Nat) (p pre rest : List Int), 0 ∉ p → d ∉ p → (∀ q ∈ ps, 0 ∉ q ∧ d ∉ q) →
    chunk i d (pre ++ (joined p (ps.map fun q => (d, q)) ++ 0 :: rest)) pre.length = some (((p :: ps)[i]?).getD []) := by
  induction ps with
  | nil =>
    intro i p pre rest h0 hp _
    simp only [joined, List.map_nil, List.flatMap_nil, List.append_nil]
    have hn := strchr_none p pre rest d h0 hp hd
    cases i with
    | zero => simp [chunk, chunkSkip, hn, len_at p pre rest h0]
    | succ i => simp [chunk, chunkSkip, hn]
  | cons q ps ih =>
    intro i p pre rest h0 hp h
    have hm : pre ++ (joined p ((q :: ps).map fun q => (d, q)) ++ 0 :: rest) =
        pre ++ (p ++ d :: (joined q (ps.map fun q => (d, q)) ++ 0 :: rest)) := by simp [joined]
    rw [hm]
    have hs := strchr_some p pre (joined q (ps.map fun q => (d, q)) ++ 0 :: rest) d h0 hp
    cases i with
    | zero => simp [chunk, chunkSkip, hs]
    | succ i =>
      have hi := ih i q (pre ++ p ++ [d]) rest (h q (by simp)).1 (h q (by simp)).2 fun x hx => h x (by simp [hx])
      simp only [List.append_assoc, List.singleton_append, List.length_append, List.length_singleton] at hi
      rw [chunk, chunkSkip, hs]
      simp only [Option.bind_some, Nat.add_assoc]
      rw [chunk] at hi
      rw [hi]
      simp

end Verif.Text
