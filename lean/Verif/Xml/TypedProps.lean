import Verif.Xml.Typed
import Mathlib.Tactic.Ring
import Mathlib.Tactic.Linarith
import Mathlib.Tactic.Positivity
import Mathlib.Data.List.Forall2

/-!
# Typed objects through XML: proofs (C197)
-/

namespace Verif.XmlTyped

open Verif.Xml
open Verif.Json (isSpace AllWs nil_ws cstr cstr_eq decimal digits digits_spec digit_facts)

/-! ## The tree -/

/-- The text of a simple value. -/
def leaf : (t : Ty) → Val t → List Char
  | .bool, b => if b = true then "true".toList else "false".toList
  | .int _ _, i => decimal (cast true 64 i)
  | .str, s => s
  | .vec _, _ => []
  | .fix _ _, _ => []
  | .obj _, _ => []

/-- A simple type. -/
def Ty.simple : Ty → Bool
  | .bool => true
  | .int _ _ => true
  | .str => true
  | _ => false

/-- The attributes of a structure. -/
def attrsF : (fs : Fields) → FVals fs → List (List Char × List Char)
  | .nil, _ => []
  | .cons n t fs, v => (if t.simple = true then [(n, leaf t v.1)] else []) ++ attrsF fs v.2

mutual
/-- The node of an element of an array. -/
def elem : (t : Ty) → Val t → List Char → Node
  | .obj fs, v, n => .mk n (attrsF fs v) [] (kidsF fs v)
  | .bool, b, n => .mk n [] (leaf .bool b) []
  | .int sg w, i, n => .mk n [] (leaf (.int sg w) i) []
  | .str, s, n => .mk n [] s []
  | .vec _, _, n => .mk n [] [] []
  | .fix _ _, _, n => .mk n [] [] []

/-- The nodes of the elements of a fixed array. -/
def elems : (ts : Tys) → Vals ts → List Char → List Node
  | .nil, _, _ => []
  | .cons t ts, v, n => elem t v.1 n :: elems ts v.2 n

/-- The nodes of a member. -/
def kidsT : (t : Ty) → Val t → List Char → List Node
  | .obj fs, v, n => [.mk n (attrsF fs v) [] (kidsF fs v)]
  | .vec t, l, n => l.map fun v => elem t v n
  | .fix _ ts, l, n => elems ts l n
  | .bool, _, _ => []
  | .int _ _, _, _ => []
  | .str, _, _ => []

/-- The nodes of a structure. -/
def kidsF : (fs : Fields) → FVals fs → List Node
  | .nil, _ => []
  | .cons n t fs, v => kidsT t v.1 n ++ kidsF fs v.2
end

theorem foldl_elem {t : Ty} {n : List Char} (h : ∀ (v : Val t) A K, ser t v none (some n) A K = (A, K ++ [elem t v n])) (l : List (Val t)) :
    ∀ A K, l.foldl (fun s v => ser t v none (some n) s.1 s.2) (A, K) = (A, K ++ l.map fun v => elem t v n) := by
  induction l with
  | nil => intro A K; simp
  | cons v l ih =>
    intro A K
    rw [List.foldl_cons, h, ih, List.map_cons, List.append_assoc]
    rfl

mutual
theorem ser_elem : ∀ (t : Ty) (_ : t.Flat) (_ : t.arr = false) (v : Val t) (n : List Char) A K, ser t v none (some n) A K = (A, K ++ [elem t v n])
  | .bool, _, _, v, n, A, K => rfl
  | .int _ _, _, _, v, n, A, K => rfl
  | .str, _, _, v, n, A, K => rfl
  | .obj fs, hf, _, v, n, A, K => by
    rw [Ty.Flat] at hf
    rw [ser, elem, ser_fields fs hf.2.2 hf.1 v _ [] [] (by simp)]
    rfl

theorem ser_all : ∀ (ts : Tys) (_ : ts.Flat) (v : Vals ts) (n : List Char) A K, serAll ts v (some n) A K = (A, K ++ elems ts v n)
  | .nil, _, v, n, A, K => by rw [serAll, elems, List.append_nil]
  | .cons t ts, hf, v, n, A, K => by
    rw [Tys.Flat] at hf
    rw [serAll, ser_elem t hf.2.1 hf.1 v.1 n A K]
    dsimp only
    rw [ser_all ts hf.2.2 v.2 n A _, elems, List.append_assoc]
    rfl

theorem ser_member : ∀ (t : Ty) (_ : t.Flat) (v : Val t) (n : List Char) arr A K (_ : n ∉ A.map (·.1)),
    ser t v (some n) arr A K = (A ++ (if t.simple = true then [(n, leaf t v)] else []), K ++ kidsT t v n)
  | .bool, _, v, n, arr, A, K, hn => by
    rw [ser, put, addAttr, if_neg hn]
    simp [Ty.simple, kidsT, leaf]
  | .int _ _, _, v, n, arr, A, K, hn => by
    rw [ser, put, addAttr, if_neg hn]
    simp [Ty.simple, kidsT, leaf]
  | .str, _, v, n, arr, A, K, hn => by
    rw [ser, put, addAttr, if_neg hn]
    simp [Ty.simple, kidsT, leaf]
  | .vec t, hf, v, n, arr, A, K, hn => by
    rw [Ty.Flat] at hf
    rw [ser, foldl_elem (fun v A K => ser_elem t hf.2 hf.1 v n A K)]
    simp [Ty.simple, kidsT]
  | .fix _ ts, hf, v, n, arr, A, K, hn => by
    rw [Ty.Flat] at hf
    rw [ser, ser_all ts hf v n A K]
    simp [Ty.simple, kidsT]
  | .obj fs, hf, v, n, arr, A, K, hn => by
    rw [Ty.Flat] at hf
    rw [ser, ser_fields fs hf.2.2 hf.1 v _ [] [] (by simp)]
    simp [Ty.simple, kidsT]

theorem ser_fields : ∀ (fs : Fields) (_ : fs.Flat) (_ : fs.names.Nodup) (v : FVals fs) arr A K (_ : ∀ n ∈ fs.names, n ∉ A.map (·.1)),
    serF fs v arr A K = (A ++ attrsF fs v, K ++ kidsF fs v)
  | .nil, _, _, v, arr, A, K, _ => by rw [serF, attrsF, kidsF, List.append_nil, List.append_nil]
  | .cons n t fs, hf, hd, v, arr, A, K, hn => by
    rw [Fields.Flat] at hf
    rw [Fields.names, List.nodup_cons] at hd
    rw [serF, ser_member t hf.1 v.1 n arr A K (hn n (by simp [Fields.names]))]
    dsimp only
    rw [ser_fields fs hf.2 hd.2 v.2 arr _ _ ?_, attrsF, kidsF, List.append_assoc, List.append_assoc]
    intro m hm hc
    rw [List.map_append, List.mem_append] at hc
    rcases hc with hc | hc
    · exact hn m (by simp [Fields.names, hm]) hc
    · split at hc
      · simp at hc
        exact hd.1 (hc ▸ hm)
      · simp at hc
end

/-! ## Parsing the tree -/

theorem cast_cast {sg : Bool} {w : Nat} {i : Int} (hw : 1 ≤ w) (hw' : w ≤ 64) (h : if sg then -2 ^ (w - 1) ≤ i ∧ i < 2 ^ (w - 1) else 0 ≤ i ∧ i < 2 ^ w) :
    cast sg w (cast true 64 i) = i := by
  obtain ⟨d, hd⟩ : ∃ d, (2 : Int) ^ 64 = 2 ^ w * d := ⟨2 ^ (64 - w), by rw [← pow_add]; congr 1; omega⟩
  have hpos : (0 : Int) < 2 ^ w := by positivity
  have hdouble : (2 : Int) ^ w = 2 * 2 ^ (w - 1) := by
    rw [← pow_succ']
    congr 1
    omega
  have e : ∃ k, cast true 64 i = i + 2 ^ w * k := by
    have := Int.emod_add_mul_ediv (i + 2 ^ 63) (2 ^ 64)
    refine ⟨d * -((i + 2 ^ 63) / 2 ^ 64), ?_⟩
    rw [← mul_assoc, ← hd]
    simp only [cast, if_true]
    norm_num at this ⊢
    linarith
  obtain ⟨k, hk⟩ := e
  rw [hk]
  unfold cast
  cases sg with
  | true =>
    simp only [if_true] at h ⊢
    rw [show i + 2 ^ w * k + 2 ^ (w - 1) = i + 2 ^ (w - 1) + 2 ^ w * k by ring, Int.add_mul_emod_self_left, Int.emod_eq_of_lt (by linarith) (by linarith)]
    ring
  | false =>
    simp only [Bool.false_eq_true, if_false] at h ⊢
    rw [Int.add_mul_emod_self_left, Int.emod_eq_of_lt h.1 h.2]

theorem cast_range (i : Int) : -2 ^ 63 ≤ cast true 64 i ∧ cast true 64 i < 2 ^ 63 := by
  simp only [cast, if_true]
  omega

mutual
theorem blank_fresh : ∀ t : Ty, Fresh t (blank t)
  | .bool => by simp [Fresh]
  | .int _ _ => by simp [Fresh]
  | .str => by simp [Fresh]
  | .vec _ => by simp [Fresh, blank]
  | .fix _ ts => by rw [Fresh, blank]; exact blanks_fresh ts
  | .obj fs => by rw [Fresh, blank]; exact fblanks_fresh fs

theorem blanks_fresh : ∀ ts : Tys, FreshA ts (blanks ts)
  | .nil => by simp [FreshA]
  | .cons t ts => by rw [FreshA]; exact ⟨blank_fresh t, blanks_fresh ts⟩

theorem fblanks_fresh : ∀ fs : Fields, FreshF fs (fblanks fs)
  | .nil => by simp [FreshF]
  | .cons _ t fs => by rw [FreshF]; exact ⟨blank_fresh t, fblanks_fresh fs⟩
end

theorem parse_simple {t : Ty} (hs : t.simple = true) (hf : t.Flat) {v : Val t} {e : Bool} (hv : Fine t v e) (old : Val t) (cur : Node) (ix : Option Idx) :
    parse t old cur (leaf t v) ix = some (v, ix) := by
  cases t with
  | bool =>
    cases v <;> simp only [parse, leaf] <;> rfl
  | int sg w =>
    rw [Ty.Flat] at hf
    rw [Fine] at hv
    have := cast_range v
    rw [parse, leaf, C92_setvalue this.1 this.2, Option.map_some, cast_cast hf.1 hf.2 hv]
  | str => rw [parse, leaf]
  | vec t => cases hs
  | fix tup ts => cases hs
  | obj fs => cases hs

/-- The structure after the attributes have been parsed. -/
def mixA : (fs : Fields) → FVals fs → FVals fs → FVals fs
  | .nil, _, _ => ()
  | .cons _ t fs, o, v => (if t.simple = true then v.1 else o.1, mixA fs o.2 v.2)

/-- The steps of a loop over attributes or nodes: name, node and text. -/
abbrev Src := List Char × Node × List Char

def loop (fs : Fields) (s : FVals fs × Option Idx) (l : List Src) : Option (FVals fs × Option Idx) := l.foldlM (fun s a => step fs s.1 a.1 a.2.1 a.2.2 s.2) s

theorem loop_append (fs : Fields) (s : FVals fs × Option Idx) (l1 l2 : List Src) : loop fs s (l1 ++ l2) = (loop fs s l1).bind fun s => loop fs s l2 := by
  rw [loop, List.foldlM_append]
  rfl

theorem loop_other {n : List Char} {t : Ty} {fs : Fields} (l : List Src) (h : ∀ a ∈ l, n ≠ a.1) :
    ∀ (o : FVals (.cons n t fs)) (ix : Option Idx), loop (.cons n t fs) (o, ix) l = (loop fs (o.2, ix) l).map fun r => ((o.1, r.1), r.2) := by
  induction l with
  | nil => intro o ix; rfl
  | cons a l ih =>
    intro o ix
    rw [loop, loop, List.foldlM_cons, List.foldlM_cons, step, if_neg (h a (by simp))]
    dsimp only
    cases step fs o.2 a.1 a.2.1 a.2.2 ix with
    | none => rfl
    | some r =>
      have := ih (fun a ha => h a (by simp [ha])) (o.1, r.1) r.2
      rw [loop, loop] at this
      exact this

theorem attrsF_names : ∀ (fs : Fields) (v : FVals fs), ∀ a ∈ attrsF fs v, a.1 ∈ fs.names
  | .nil, _, a, ha => by simp [attrsF] at ha
  | .cons n t fs, v, a, ha => by
    rw [attrsF, List.mem_append] at ha
    rw [Fields.names]
    rcases ha with ha | ha
    · split at ha
      · simp at ha; simp [ha]
      · simp at ha
    · exact List.mem_cons_of_mem _ (attrsF_names fs v.2 a ha)

theorem loop_attrs (cur : Node) : ∀ (fs : Fields) (_ : fs.Flat) (_ : fs.names.Nodup) (o v : FVals fs) (_ : FineF fs v) (ix : Option Idx),
    loop fs (o, ix) ((attrsF fs v).map fun a => (a.1, cur, a.2)) = some (mixA fs o v, ix)
  | .nil, _, _, o, v, _, ix => rfl
  | .cons n t fs, hf, hd, o, v, hv, ix => by
    rw [Fields.Flat] at hf
    rw [Fields.names, List.nodup_cons] at hd
    rw [FineF] at hv
    have hrest : ∀ o : FVals (.cons n t fs), loop (.cons n t fs) (o, ix) ((attrsF fs v.2).map fun a => (a.1, cur, a.2)) = some ((o.1, mixA fs o.2 v.2), ix) := by
      intro o
      rw [loop_other _ ?_, loop_attrs cur fs hf.2 hd.2 o.2 v.2 hv.2 ix]
      · rfl
      · intro a ha e
        obtain ⟨b, hb, rfl⟩ := List.mem_map.1 ha
        exact hd.1 (e ▸ attrsF_names fs v.2 b hb)
    rw [attrsF, List.map_append, loop_append, mixA]
    by_cases hs : t.simple = true
    · rw [if_pos hs, if_pos hs]
      have : loop (.cons n t fs) (o, ix) [(n, cur, leaf t v.1)] = some ((v.1, o.2), ix) := by
        rw [loop, List.foldlM_cons, step, if_pos rfl, parse_simple hs hf.1 hv.1]
        rfl
      rw [List.map_cons, List.map_nil, this, Option.bind_some, hrest]
    · rw [if_neg hs, if_neg hs]
      exact hrest o

/-- The names of nodes that are the same. -/
theorem same_split {l1 l2 ks : List Node} (h : SameL (l1 ++ l2) ks) : ∃ k1 k2, ks = k1 ++ k2 ∧ SameL l1 k1 ∧ SameL l2 k2 := by
  induction l1 generalizing ks with
  | nil => exact ⟨[], ks, rfl, rfl, h⟩
  | cons a l1 ih =>
    cases ks with
    | nil => exact h.elim
    | cons k ks =>
      obtain ⟨k1, k2, rfl, h1, h2⟩ := ih h.2
      exact ⟨k :: k1, k2, rfl, ⟨h.1, h1⟩, h2⟩

theorem same_nm {a b : Node} (h : a.Same b) : nm b = nm a := by
  obtain ⟨n, at', t, k⟩ := a
  obtain ⟨n', at'', t', k'⟩ := b
  rw [Node.Same] at h
  exact h.1.symm

theorem sameL_nm {l ks : List Node} (h : SameL l ks) : ∀ k ∈ ks, ∃ a ∈ l, nm k = nm a := by
  induction l generalizing ks with
  | nil =>
    rw [SameL] at h
    subst h
    intro k hk
    cases hk
  | cons a l ih =>
    cases ks with
    | nil => exact h.elim
    | cons k ks =>
      intro x hx
      rcases List.mem_cons.1 hx with rfl | hx
      · exact ⟨a, by simp, same_nm h.1⟩
      · obtain ⟨b, hb, e⟩ := ih h.2 x hx
        exact ⟨b, by simp [hb], e⟩

theorem elem_nm : ∀ (t : Ty) (v : Val t) (n : List Char), nm (elem t v n) = n
  | .bool, _, _ => rfl
  | .int _ _, _, _ => rfl
  | .str, _, _ => rfl
  | .vec _, _, _ => rfl
  | .fix _ _, _, _ => rfl
  | .obj _, _, _ => by rw [elem]; rfl

theorem elems_nm : ∀ (ts : Tys) (v : Vals ts) (n : List Char), ∀ k ∈ elems ts v n, nm k = n
  | .nil, _, _, k, hk => by simp [elems] at hk
  | .cons t ts, v, n, k, hk => by
    rw [elems] at hk
    rcases List.mem_cons.1 hk with rfl | hk
    · exact elem_nm t v.1 n
    · exact elems_nm ts v.2 n k hk

theorem kidsT_nm (t : Ty) (v : Val t) (n : List Char) : ∀ k ∈ kidsT t v n, nm k = n := by
  intro k hk
  cases t with
  | bool => simp [kidsT] at hk
  | int sg w => simp [kidsT] at hk
  | str => simp [kidsT] at hk
  | vec t =>
    rw [kidsT] at hk
    obtain ⟨a, -, rfl⟩ := List.mem_map.1 hk
    exact elem_nm t a n
  | fix tup ts => rw [kidsT] at hk; exact elems_nm ts v n k hk
  | obj fs => simp [kidsT] at hk; rw [hk]; rfl

theorem kidsF_nm : ∀ (fs : Fields) (v : FVals fs), ∀ k ∈ kidsF fs v, nm k ∈ fs.names
  | .nil, _, k, hk => by simp [kidsF] at hk
  | .cons n t fs, v, k, hk => by
    rw [kidsF, List.mem_append] at hk
    rw [Fields.names]
    rcases hk with hk | hk
    · rw [kidsT_nm t v.1 n k hk]; simp
    · exact List.mem_cons_of_mem _ (kidsF_nm fs v.2 k hk)

/-- The source of a node. -/
def src (k : Node) : Src := (nm k, k, textOf k)

/-- The loop over the nodes of one member. -/
def own (t : Ty) (s : Val t × Option Idx) (l : List Node) : Option (Val t × Option Idx) := l.foldlM (fun s k => parse t s.1 k (textOf k) s.2) s

theorem loop_own {n : List Char} {t : Ty} {fs : Fields} (l : List Node) (h : ∀ k ∈ l, nm k = n) :
    ∀ (o : FVals (.cons n t fs)) (ix : Option Idx), loop (.cons n t fs) (o, ix) (l.map src) = (own t (o.1, ix) l).map fun r => ((r.1, o.2), r.2) := by
  induction l with
  | nil => intro o ix; rfl
  | cons a l ih =>
    intro o ix
    have hk : n = (src a).1 := (h a (by simp)).symm
    rw [loop, own, List.map_cons, List.foldlM_cons, List.foldlM_cons, step, if_pos hk]
    dsimp only [src]
    cases parse t o.1 a (textOf a) ix with
    | none => rfl
    | some r =>
      have := ih (fun a ha => h a (by simp [ha])) (r.1, o.2) r.2
      rw [loop, own] at this
      exact this

/-- The parse of an element succeeds and leaves the indices alone. -/
def Reads (t : Ty) (v : Val t) (k : Node) : Prop := ∀ old ix, Fresh t old → parse t old k (textOf k) ix = some (v, ix)

theorem own_vec {t : Ty} {n : List Char} : ∀ (l : List (Val t)) (ks : List Node) (_ : List.Forall₂ (Reads t) l ks) (_ : ∀ k ∈ ks, nm k = n) (acc : List (Val t)) (ix : Idx),
    ∃ ix' : Idx, own (.vec t) (acc, some ix) ks = some (acc ++ l, some ix') ∧ ∀ m, m ≠ n → ix' m = ix m
  | [], [], _, _, acc, ix => ⟨ix, by simp [own], fun _ _ => rfl⟩
  | v :: l, k :: ks, h, hn, acc, ix => by
    obtain ⟨h1, h2⟩ := List.forall₂_cons.1 h
    obtain ⟨ix', e, hx⟩ := own_vec l ks h2 (fun k hk => hn k (by simp [hk])) (acc ++ [v]) (touch ix (nm k))
    refine ⟨ix', ?_, fun m hm => ?_⟩
    · have : parse (.vec t) acc k (textOf k) (some ix) = some (acc ++ [v], some (touch ix (nm k))) := by
        rw [parse, h1 _ _ (blank_fresh t)]
        rfl
      rw [own, List.foldlM_cons, this]
      rw [own, List.append_assoc] at e
      exact e
    · rw [hx m hm, touch]
      split
      · rw [setIdx, if_neg]
        rw [hn k (by simp)]
        exact hm
      · rfl

/-- A sequence of nodes for the elements from index `i` on. -/
inductive Seq (ts : Tys) : Vals ts → Nat → List Node → Vals ts → Prop where
  | nil (o : Vals ts) (i : Nat) : Seq ts o i [] o
  | cons {o o1 o2 : Vals ts} {i : Nat} {k : Node} {ks : List Node} : (∀ ix, parseAt ts o i k (textOf k) ix = some (o1, ix)) → Seq ts o1 (i + 1) ks o2 → Seq ts o i (k :: ks) o2

theorem seq_shift {t : Ty} {ts : Tys} {a : Val t} {o o' : Vals ts} {i : Nat} {ks : List Node} (h : Seq ts o i ks o') : Seq (.cons t ts) (a, o) (i + 1) ks (a, o') := by
  induction h with
  | nil o i => exact .nil _ _
  | cons h _ ih =>
    refine .cons (fun ix => ?_) ih
    rw [parseAt, h ix]
    rfl

theorem own_fix {tup : Bool} {ts : Tys} {n : List Char} {o o' : Vals ts} {i : Nat} {ks : List Node} (h : Seq ts o i ks o') (hi : i + ks.length ≤ ts.length) (hn : ∀ k ∈ ks, nm k = n) (ix : Idx)
    (hx : (ix n).getD 0 = i) : ∃ ix' : Idx, own (.fix tup ts) (o, some ix) ks = some (o', some ix') ∧ ∀ m, m ≠ n → ix' m = ix m := by
  induction h generalizing ix with
  | nil o i => exact ⟨ix, rfl, fun _ _ => rfl⟩
  | @cons o o1 o2 i k ks h h2 ih =>
    rw [List.length_cons] at hi
    have hk := hn k (by simp)
    obtain ⟨ix', e, hx'⟩ := ih (by omega) (fun k hk => hn k (by simp [hk])) (setIdx ix n (i + 1)) (by simp [setIdx])
    refine ⟨ix', ?_, fun m hm => by rw [hx' m hm, setIdx, if_neg hm]⟩
    have : parse (.fix tup ts) o k (textOf k) (some ix) = some (o1, some (setIdx ix n (i + 1))) := by
      rw [parse]
      simp only [hk, hx]
      rw [h, if_pos (by simp; right; omega)]
    rw [own, List.foldlM_cons, this]
    rw [own] at e
    exact e

theorem elems_length : ∀ (ts : Tys) (v : Vals ts) (n : List Char), (elems ts v n).length = ts.length
  | .nil, _, _ => rfl
  | .cons t ts, v, n => by rw [elems, List.length_cons, elems_length ts v.2 n, Tys.length]

theorem sameL_length {l ks : List Node} (h : SameL l ks) : ks.length = l.length := by
  induction l generalizing ks with
  | nil => rw [SameL] at h; rw [h]
  | cons a l ih =>
    cases ks with
    | nil => exact h.elim
    | cons k ks => rw [List.length_cons, List.length_cons, ih h.2]

theorem reads_simple {t : Ty} (hs : t.simple = true) (hf : t.Flat) {v : Val t} {e : Bool} (hv : Fine t v e) {n : List Char} {k : Node} (h : (elem t v n).Same k) : Reads t v k := by
  intro old ix _
  obtain ⟨n', a', t', k'⟩ := k
  have : t' = leaf t v := by
    cases t with
    | bool => rw [elem, Node.Same] at h; obtain ⟨-, -, ⟨w, -, hw, e⟩, -⟩ := h; rw [e, hw rfl, List.append_nil]
    | int sg w => rw [elem, Node.Same] at h; obtain ⟨-, -, ⟨w, -, hw, e⟩, -⟩ := h; rw [e, hw rfl, List.append_nil]
    | str => rw [elem, Node.Same] at h; obtain ⟨-, -, ⟨w, -, hw, e⟩, -⟩ := h; rw [e, hw rfl, List.append_nil]; rfl
    | vec t => cases hs
    | fix tup ts => cases hs
    | obj fs => cases hs
  rw [textOf, this]
  exact parse_simple hs hf hv old _ ix

theorem forall_reads {t : Ty} {n : List Char} (h : ∀ (v : Val t), Fine t v true → ∀ k, (elem t v n).Same k → Reads t v k) :
    ∀ (l : List (Val t)) (ks : List Node), (∀ v ∈ l, Fine t v true) → SameL (l.map fun v => elem t v n) ks → List.Forall₂ (Reads t) l ks
  | [], ks, _, hs => by
    rw [List.map_nil, SameL] at hs
    rw [hs]
    exact .nil
  | v :: l, [], _, hs => hs.elim
  | v :: l, k :: ks, hv, hs => .cons (h v (hv v (by simp)) k hs.1) (forall_reads h l ks (fun v hm => hv v (by simp [hm])) hs.2)

mutual
/-- An element is read back. -/
theorem reads_elem : ∀ (t : Ty) (_ : t.Flat) (_ : t.arr = false) (v : Val t) (e : Bool) (_ : Fine t v e) (n : List Char) (k : Node) (_ : (elem t v n).Same k), Reads t v k
  | .bool, hf, _, v, e, hv, n, k, h => reads_simple rfl hf hv h
  | .int _ _, hf, _, v, e, hv, n, k, h => reads_simple rfl hf hv h
  | .str, hf, _, v, e, hv, n, k, h => reads_simple rfl hf hv h
  | .obj fs, hf, _, v, e, hv, n, .mk n' a' t' k', h => by
    intro old ix ho
    rw [Ty.Flat] at hf
    rw [Fine] at hv
    rw [elem, Node.Same] at h
    rw [Fresh] at ho
    obtain ⟨-, rfl, -, hk⟩ := h
    have e1 := loop_attrs (.mk n' (attrsF fs v) t' k') fs hf.2.2 hf.1 old v hv (some fun _ => none)
    obtain ⟨ix', e2⟩ := reads_fields fs hf.2.2 hf.1 old v hv ho k' hk (fun _ => none) (fun _ _ => rfl)
    rw [loop, List.foldlM_map] at e1 e2
    rw [parse, attrsOf, kidsOf]
    dsimp only at e1 ⊢
    rw [e1]
    dsimp only [src] at e2 ⊢
    rw [e2]
    rfl

theorem reads_elems : ∀ (ts : Tys) (_ : ts.Flat) (o v : Vals ts) (_ : FineA ts v) (_ : FreshA ts o) (n : List Char) (ks : List Node) (_ : SameL (elems ts v n) ks), Seq ts o 0 ks v
  | .nil, _, o, v, _, _, n, ks, h => by
    rw [elems, SameL] at h
    rw [h]
    exact .nil _ _
  | .cons t ts, hf, o, v, hv, ho, n, [], h => by
    rw [elems] at h
    exact h.elim
  | .cons t ts, hf, o, v, hv, ho, n, k :: ks, h => by
    rw [elems] at h
    rw [Tys.Flat] at hf
    rw [FineA] at hv
    rw [FreshA] at ho
    refine .cons (o1 := (v.1, o.2)) (fun ix => ?_) (seq_shift (reads_elems ts hf.2.2 o.2 v.2 hv.2 ho.2 n ks h.2))
    rw [parseAt, reads_elem t hf.2.1 hf.1 v.1 true hv.1 n k h.1 o.1 ix ho.1]
    rfl

/-- The nodes of a member are read back. -/
theorem reads_member : ∀ (t : Ty) (_ : t.Flat) (o v : Val t) (_ : ∃ e, Fine t v e) (_ : Fresh t o) (n : List Char) (ks : List Node) (_ : SameL (kidsT t v n) ks) (ix : Idx) (_ : ix n = none),
    ∃ ix' : Idx, own t (if t.simple = true then v else o, some ix) ks = some (v, some ix') ∧ ∀ m, m ≠ n → ix' m = ix m
  | .bool, _, o, v, _, _, n, ks, h, ix, _ => by
    rw [kidsT, SameL] at h
    exact ⟨ix, by rw [h]; rfl, fun _ _ => rfl⟩
  | .int _ _, _, o, v, _, _, n, ks, h, ix, _ => by
    rw [kidsT, SameL] at h
    exact ⟨ix, by rw [h]; rfl, fun _ _ => rfl⟩
  | .str, _, o, v, _, _, n, ks, h, ix, _ => by
    rw [kidsT, SameL] at h
    exact ⟨ix, by rw [h]; rfl, fun _ _ => rfl⟩
  | .vec t, hf, o, v, ⟨e, hv⟩, ho, n, ks, h, ix, _ => by
    rw [kidsT] at h
    rw [Ty.Flat] at hf
    rw [Fine] at hv
    rw [Fresh] at ho
    have hn : ∀ k ∈ ks, nm k = n := by
      intro k hk
      obtain ⟨a, ha, e⟩ := sameL_nm h k hk
      obtain ⟨b, -, rfl⟩ := List.mem_map.1 ha
      rw [e, elem_nm]
    obtain ⟨ix', e1, e2⟩ := own_vec v ks (forall_reads (fun w hw k hk => reads_elem t hf.2 hf.1 w true hw n k hk) v ks hv h) hn [] ix
    refine ⟨ix', ?_, e2⟩
    rw [ho]
    exact e1
  | .fix tup ts, hf, o, v, ⟨e, hv⟩, ho, n, ks, h, ix, hx => by
    rw [kidsT] at h
    rw [Ty.Flat] at hf
    rw [Fine] at hv
    rw [Fresh] at ho
    have hn : ∀ k ∈ ks, nm k = n := by
      intro k hk
      obtain ⟨a, ha, e⟩ := sameL_nm h k hk
      rw [e, elems_nm ts v n a ha]
    exact own_fix (reads_elems ts hf o v hv ho n ks h) (by rw [sameL_length h, elems_length]; omega) hn ix (by rw [hx]; rfl)
  | .obj fs, hf, o, v, ⟨e, hv⟩, ho, n, [], h, ix, _ => by
    rw [kidsT] at h
    exact h.elim
  | .obj fs, hf, o, v, ⟨e, hv⟩, ho, n, k :: k2 :: ks, h, ix, _ => by
    rw [kidsT] at h
    exact absurd h.2 (by simp [SameL])
  | .obj fs, hf, o, v, ⟨e, hv⟩, ho, n, [.mk n' a' t' k'], h, ix, _ => by
    rw [kidsT] at h
    obtain ⟨h, -⟩ := h
    rw [Node.Same] at h
    rw [Ty.Flat] at hf
    rw [Fine] at hv
    rw [Fresh] at ho
    obtain ⟨-, rfl, -, hk⟩ := h
    have e1 := loop_attrs (.mk n' (attrsF fs v) t' k') fs hf.2.2 hf.1 o v hv (some fun _ => none)
    obtain ⟨ix', e2⟩ := reads_fields fs hf.2.2 hf.1 o v hv ho k' hk (fun _ => none) (fun _ _ => rfl)
    rw [loop, List.foldlM_map] at e1 e2
    refine ⟨ix, ?_, fun _ _ => rfl⟩
    have e3 : parse (.obj fs) o (.mk n' (attrsF fs v) t' k') t' (some ix) = some (v, some ix) := by
      rw [parse, attrsOf, kidsOf]
      dsimp only at e1 ⊢
      rw [e1]
      dsimp only [src] at e2 ⊢
      rw [e2]
      rfl
    rw [own, List.foldlM_cons]
    change (do let init ← parse (.obj fs) o (.mk n' (attrsF fs v) t' k') t' (some ix); _) = _
    rw [e3]
    rfl

theorem reads_fields : ∀ (fs : Fields) (_ : fs.Flat) (_ : fs.names.Nodup) (o v : FVals fs) (_ : FineF fs v) (_ : FreshF fs o) (ks : List Node) (_ : SameL (kidsF fs v) ks) (ix : Idx)
    (_ : ∀ n ∈ fs.names, ix n = none), ∃ ix' : Idx, loop fs (mixA fs o v, some ix) (ks.map src) = some (v, some ix')
  | .nil, _, _, o, v, _, _, ks, h, ix, _ => by
    rw [kidsF, SameL] at h
    exact ⟨ix, by rw [h]; rfl⟩
  | .cons n t fs, hf, hd, o, v, hv, ho, ks, h, ix, hx => by
    rw [kidsF] at h
    rw [Fields.Flat] at hf
    rw [Fields.names, List.nodup_cons] at hd
    rw [FineF] at hv
    rw [FreshF] at ho
    obtain ⟨k1, k2, rfl, h1, h2⟩ := same_split h
    obtain ⟨ix1, e1, hx1⟩ := reads_member t hf.1 o.1 v.1 ⟨_, hv.1⟩ ho.1 n k1 h1 ix (hx n (by simp [Fields.names]))
    obtain ⟨ix2, e2⟩ := reads_fields fs hf.2 hd.2 o.2 v.2 hv.2 ho.2 k2 h2 ix1 (fun m hm => by
      rw [hx1 m (fun e => hd.1 (e ▸ hm))]
      exact hx m (by simp [Fields.names, hm]))
    refine ⟨ix2, ?_⟩
    rw [List.map_append, loop_append, mixA, loop_own k1 ?_, e1, Option.map_some, Option.bind_some, loop_other _ ?_, e2]
    · rfl
    · intro a ha e
      obtain ⟨k, hk, rfl⟩ := List.mem_map.1 ha
      obtain ⟨b, hb, e'⟩ := sameL_nm h2 k hk
      refine hd.1 ?_
      rw [e]
      dsimp only [src]
      rw [e']
      exact kidsF_nm fs v.2 b hb
    · intro k hk
      obtain ⟨b, hb, e'⟩ := sameL_nm h1 k hk
      rw [e', kidsT_nm t v.1 n b hb]
end

/-! ## The text -/

theorem digit_visible {c : Char} (h : '0' ≤ c ∧ c ≤ '9') : '!' ≤ c ∧ c.toNat < 128 := by
  have h1 : '0'.toNat ≤ c.toNat := h.1
  have h2 : c.toNat ≤ '9'.toNat := h.2
  constructor
  · show '!'.toNat ≤ c.toNat
    exact Nat.le_trans (by decide) h1
  · exact Nat.lt_of_le_of_lt h2 (by decide)

theorem decimal_chars (i : Int) : ∀ c ∈ decimal i, c = '-' ∨ ('0' ≤ c ∧ c ≤ '9') := by
  obtain ⟨⟨-, hd⟩, -, -⟩ := digits_spec i.natAbs
  intro c hc
  rw [decimal] at hc
  split at hc
  · rcases List.mem_cons.1 hc with rfl | hc
    · exact .inl rfl
    · exact .inr (hd c hc)
  · exact .inr (hd c hc)

theorem decimal_ne (i : Int) : ∃ c ∈ decimal i, '0' ≤ c ∧ c ≤ '9' := by
  obtain ⟨⟨hne, hd⟩, -, -⟩ := digits_spec i.natAbs
  obtain ⟨c, r, e⟩ := List.exists_cons_of_ne_nil hne
  have hm : c ∈ digits i.natAbs := by rw [e]; simp
  refine ⟨c, ?_, hd c hm⟩
  rw [decimal]
  split
  · exact List.mem_cons_of_mem _ hm
  · exact hm

theorem leaf_attr {t : Ty} (hs : t.simple = true) {v : Val t} (hv : Fine t v false) : AttrOk false (leaf t v) := by
  cases t with
  | bool =>
    intro c hc
    cases v <;> simp [leaf] at hc <;> rcases hc with rfl | rfl | rfl | rfl | rfl <;> simp
  | int sg w =>
    intro c hc
    rcases decimal_chars _ c hc with rfl | h
    · simp
    · have ne : ∀ x : Char, ¬('0' ≤ x ∧ x ≤ '9') → c ≠ x := fun x hx e => hx (e ▸ h)
      exact ⟨ne _ (by decide), ne _ (by decide), ne _ (by decide), fun h => by cases h⟩
  | str => rw [leaf]; simpa [Fine] using hv
  | vec t => cases hs
  | fix tup ts => cases hs
  | obj fs => cases hs

theorem leaf_text {t : Ty} (hs : t.simple = true) {v : Val t} (hv : Fine t v true) : TextOk (leaf t v) := by
  cases t with
  | bool => cases v <;> exact ⟨by decide, .inr (by decide)⟩
  | int sg w =>
    refine ⟨fun hc => ?_, .inr ?_⟩
    · rcases decimal_chars _ _ hc with h | h
      · exact absurd h (by decide)
      · exact absurd h (by decide)
    · obtain ⟨c, hc, h⟩ := decimal_ne (cast true 64 v)
      exact ⟨c, hc, digit_visible h⟩
  | str => rw [leaf]; simpa [Fine] using hv
  | vec t => cases hs
  | fix tup ts => cases hs
  | obj fs => cases hs

theorem attrsF_ok : ∀ (fs : Fields) (_ : fs.Flat) (_ : fs.names.Nodup) (_ : ∀ n ∈ fs.names, NameOk n) (v : FVals fs) (_ : FineF fs v), AttrsOk false (attrsF fs v)
  | .nil, _, _, _, _, _ => ⟨by simp [attrsF], by simp [attrsF]⟩
  | .cons n t fs, hf, hd, hn, v, hv => by
    rw [Fields.Flat] at hf
    rw [Fields.names, List.nodup_cons] at hd
    rw [FineF] at hv
    obtain ⟨h1, h2⟩ := attrsF_ok fs hf.2 hd.2 (fun m hm => hn m (by simp [Fields.names, hm])) v.2 hv.2
    rw [attrsF]
    by_cases hs : t.simple = true
    · rw [if_pos hs]
      constructor
      · intro a ha
        rcases List.mem_cons.1 ha with rfl | ha
        · exact ⟨hn n (by simp [Fields.names]), leaf_attr hs hv.1⟩
        · exact h1 a ha
      · rw [List.singleton_append, List.map_cons, List.nodup_cons]
        refine ⟨fun hm => ?_, h2⟩
        obtain ⟨a, ha, e⟩ := List.mem_map.1 hm
        exact hd.1 (by dsimp only at e; rw [← e]; exact attrsF_names fs v.2 a ha)
    · rw [if_neg hs]
      exact ⟨h1, h2⟩

theorem okL_append {l1 l2 : List Node} (h1 : OkL false l1) (h2 : OkL false l2) : OkL false (l1 ++ l2) := by
  induction l1 with
  | nil => exact h2
  | cons a l ih => exact ⟨h1.1, ih h1.2⟩

theorem okL_map {t : Ty} {n : List Char} : ∀ (l : List (Val t)) (_ : ∀ v ∈ l, (elem t v n).Ok false), OkL false (l.map fun v => elem t v n)
  | [], _ => by simp [OkL]
  | v :: l, h => ⟨h v (by simp), okL_map l fun w hw => h w (by simp [hw])⟩

mutual
theorem elem_ok : ∀ (t : Ty) (_ : t.Flat) (_ : t.arr = false) (v : Val t) (_ : Fine t v true) (n : List Char) (_ : NameOk n), (elem t v n).Ok false
  | .bool, _, _, v, hv, n, hn => ⟨hn, ⟨by simp, by simp⟩, leaf_text rfl hv, by simp [OkL]⟩
  | .int _ _, _, _, v, hv, n, hn => ⟨hn, ⟨by simp, by simp⟩, leaf_text rfl hv, by simp [OkL]⟩
  | .str, _, _, v, hv, n, hn => ⟨hn, ⟨by simp, by simp⟩, leaf_text rfl hv, by simp [OkL]⟩
  | .obj fs, hf, _, v, hv, n, hn => by
    rw [Ty.Flat] at hf
    rw [Fine] at hv
    rw [elem, Node.Ok]
    exact ⟨hn, attrsF_ok fs hf.2.2 hf.1 hf.2.1 v hv, ⟨by simp, .inl rfl⟩, fields_ok fs hf.2.2 hf.2.1 v hv⟩

theorem elems_ok : ∀ (ts : Tys) (_ : ts.Flat) (v : Vals ts) (_ : FineA ts v) (n : List Char) (_ : NameOk n), OkL false (elems ts v n)
  | .nil, _, _, _, _, _ => by simp [elems, OkL]
  | .cons t ts, hf, v, hv, n, hn => by
    rw [Tys.Flat] at hf
    rw [FineA] at hv
    rw [elems, OkL]
    exact ⟨elem_ok t hf.2.1 hf.1 v.1 hv.1 n hn, elems_ok ts hf.2.2 v.2 hv.2 n hn⟩

theorem kids_ok : ∀ (t : Ty) (_ : t.Flat) (v : Val t) (_ : Fine t v false) (n : List Char) (_ : NameOk n), OkL false (kidsT t v n)
  | .bool, _, _, _, _, _ => by simp [kidsT, OkL]
  | .int _ _, _, _, _, _, _ => by simp [kidsT, OkL]
  | .str, _, _, _, _, _ => by simp [kidsT, OkL]
  | .vec t, hf, v, hv, n, hn => by
    rw [Ty.Flat] at hf
    rw [Fine] at hv
    rw [kidsT]
    exact okL_map v fun w hw => elem_ok t hf.2 hf.1 w (hv w hw) n hn
  | .fix _ ts, hf, v, hv, n, hn => by
    rw [Ty.Flat] at hf
    rw [Fine] at hv
    rw [kidsT]
    exact elems_ok ts hf v hv n hn
  | .obj fs, hf, v, hv, n, hn => by
    rw [Ty.Flat] at hf
    rw [Fine] at hv
    rw [kidsT, OkL, Node.Ok]
    exact ⟨⟨hn, attrsF_ok fs hf.2.2 hf.1 hf.2.1 v hv, ⟨by simp, .inl rfl⟩, fields_ok fs hf.2.2 hf.2.1 v hv⟩, by simp [OkL]⟩

theorem fields_ok : ∀ (fs : Fields) (_ : fs.Flat) (_ : ∀ n ∈ fs.names, NameOk n) (v : FVals fs) (_ : FineF fs v), OkL false (kidsF fs v)
  | .nil, _, _, _, _ => by simp [kidsF, OkL]
  | .cons n t fs, hf, hn, v, hv => by
    rw [Fields.Flat] at hf
    rw [FineF] at hv
    rw [kidsF]
    exact okL_append (kids_ok t hf.1 v.1 hv.1 n (hn n (by simp [Fields.names]))) (fields_ok fs hf.2 (fun m hm => hn m (by simp [Fields.names, hm])) v.2 hv.2)
end

/-! ## Theorems -/

theorem vec_top {t : Ty} : ∀ (l : List (Val t)) (ks : List Node) (_ : List.Forall₂ (Reads t) l ks) (acc : List (Val t)),
    ks.foldlM (fun l k => (parse t (blank t) k (textOf k) none).map fun r => l ++ [r.1]) acc = some (acc ++ l)
  | [], [], _, acc => by simp
  | v :: l, k :: ks, h, acc => by
    obtain ⟨h1, h2⟩ := List.forall₂_cons.1 h
    rw [List.foldlM_cons, h1 _ _ (blank_fresh t)]
    have := vec_top l ks h2 (acc ++ [v])
    rw [List.append_assoc] at this
    exact this

theorem fix_top {ts : Tys} {o o' : Vals ts} {i : Nat} {ks : List Node} (h : Seq ts o i ks o') :
    ∃ j, ks.foldlM (fun (s : Vals ts × Nat) k => (parseAt ts s.1 s.2 k (textOf k) none).map fun r => (r.1, s.2 + 1)) (o, i) = some (o', j) := by
  induction h with
  | nil o i => exact ⟨i, rfl⟩
  | cons h _ ih =>
    obtain ⟨j, e⟩ := ih
    refine ⟨j, ?_⟩
    rw [List.foldlM_cons]
    dsimp only
    rw [h]
    exact e

/-- **C197**: an object written with `Serializer<XMLEngine>` under a name, pretty or not, is read back into an object with empty vectors. -/
theorem C197_roundtrip_partial {t : Ty} (hs : t.simple = false) (hf : t.Flat) {v old : Val t} (hv : Fine t v false) (ho : Fresh t old) {n : List Char} (hn : NameOk n) (pretty : Bool) :
    parseX t old (some n) (writeX pretty t v (some n)) = some v := by
  have hser := ser_member t hf v n none [] [] (by simp)
  rw [hs, if_neg (by decide), List.append_nil, List.nil_append] at hser
  have hfile : FileOk false "xml".toList [] (kidsT t v n) := by
    refine ⟨⟨?_, 'l', by decide, by decide⟩, ⟨by simp, by simp⟩, fun _ => rfl, kids_ok t hf v hv n hn⟩
    decide
  obtain ⟨text', ks, hd, -, hk, -⟩ := C89_grammar_partial (text := []) pretty hfile
  rw [parseX, writeX, serTop, hser]
  dsimp only
  rw [C90_parse_partial hd]
  dsimp only
  have hnm : ∀ k ∈ ks, nm k = n := by
    intro k hm
    obtain ⟨a, ha, e⟩ := sameL_nm hk k hm
    rw [e, kidsT_nm t v n a ha]
  have hfil : ks.filter (fun k => decide (nm k = n)) = ks := List.filter_eq_self.2 fun k hm => by simp [hnm k hm]
  cases t with
  | bool => cases hs
  | int sg w => cases hs
  | str => cases hs
  | vec t =>
    rw [kidsT] at hk
    rw [Ty.Flat] at hf
    rw [Fine] at hv
    rw [Fresh] at ho
    have := vec_top v ks (forall_reads (fun w hw k hk => reads_elem t hf.2 hf.1 w true hw n k hk) v ks hv hk) []
    simp only [parseTop, kidsOf]
    rw [hfil, ho]
    exact this
  | fix tup ts =>
    rw [kidsT] at hk
    rw [Ty.Flat] at hf
    rw [Fine] at hv
    rw [Fresh] at ho
    obtain ⟨j, e⟩ := fix_top (reads_elems ts hf old v hv ho n ks hk)
    simp only [parseTop, kidsOf]
    rw [hfil, e]
    rfl
  | obj fs =>
    rw [kidsT] at hk
    cases ks with
    | nil => exact hk.elim
    | cons k ks =>
      have : ks = [] := hk.2
      subst this
      have hr := reads_elem (.obj fs) hf rfl v false hv n k (by rw [elem]; exact hk.1) old none ho
      simp only [parseTop, kidsOf, getNode]
      rw [hfil]
      dsimp only [List.getLast?_singleton]
      rw [hr]
      rfl

/-- The names of the members that are not simple. -/
def Fields.compound : Fields → List (List Char)
  | .nil => []
  | .cons n t fs => (if t.simple = true then [] else [n]) ++ fs.compound

theorem step_unknown : ∀ (fs : Fields) (o : FVals fs) (m : List Char) (_ : m ∉ fs.names) (cur : Node) (v : List Char) (ix : Option Idx), step fs o m cur v ix = some (o, ix)
  | .nil, o, m, _, cur, v, ix => rfl
  | .cons n t fs, o, m, h, cur, v, ix => by
    rw [Fields.names, List.mem_cons, not_or] at h
    rw [step, if_neg (fun e => h.1 e.symm), step_unknown fs o.2 m h.2]
    rfl

theorem step_cur : ∀ (fs : Fields) (o : FVals fs) (m : List Char) (_ : m ∉ fs.compound) (cur cur' : Node) (v : List Char) (ix : Option Idx), step fs o m cur v ix = step fs o m cur' v ix
  | .nil, o, m, _, cur, cur', v, ix => rfl
  | .cons n t fs, o, m, h, cur, cur', v, ix => by
    rw [Fields.compound, List.mem_append, not_or] at h
    rw [step, step]
    by_cases hn : n = m
    · have hs : t.simple = true := by
        by_contra hs
        exact h.1 (by rw [if_neg hs, hn]; simp)
      rw [if_pos hn, if_pos hn]
      cases t with
      | bool => rfl
      | int sg w => rfl
      | str => rfl
      | vec t => cases hs
      | fix tup ts => cases hs
      | obj fs => cases hs
    · rw [if_neg hn, if_neg hn, step_cur fs o.2 m h.2 cur cur']

theorem foldlM_filter {α β : Type} (f : β → α → Option β) (p : α → Bool) : ∀ (l : List α) (_ : ∀ a ∈ l, p a = false → ∀ b, f b a = some b) (b : β), l.foldlM f b = (l.filter p).foldlM f b
  | [], _, b => rfl
  | a :: l, h, b => by
    have ih := foldlM_filter f p l fun a ha => h a (by simp [ha])
    cases hp : p a with
    | true =>
      rw [List.filter_cons_of_pos hp, List.foldlM_cons, List.foldlM_cons]
      congr 1
      funext b
      exact ih b
    | false =>
      rw [List.filter_cons_of_neg (by simp [hp]), List.foldlM_cons, h a (by simp) hp b]
      exact ih b

theorem foldlM_congr {α β : Type} (f g : β → α → Option β) : ∀ (l : List α) (_ : ∀ a ∈ l, ∀ b, f b a = g b a) (b : β), l.foldlM f b = l.foldlM g b
  | [], _, b => rfl
  | a :: l, h, b => by
    rw [List.foldlM_cons, List.foldlM_cons, h a (by simp) b]
    congr 1
    funext b
    exact foldlM_congr f g l (fun a ha => h a (by simp [ha])) b

/-- **C197**: attributes and elements that the structure does not have are ignored, as long as no attribute has the name of a member that is a structure or an array. -/
theorem C197_unknown_partial {fs : Fields} {attrs : List (List Char × List Char)} (h : ∀ a ∈ attrs, a.1 ∉ fs.compound) (old : FVals fs) (n text v : List Char) (kids : List Node) (ix : Option Idx) :
    parse (.obj fs) old (.mk n attrs text kids) v ix =
      parse (.obj fs) old (.mk n (attrs.filter fun a => decide (a.1 ∈ fs.names)) text (kids.filter fun k => decide (nm k ∈ fs.names))) v ix := by
  rw [parse, parse]
  simp only [attrsOf, kidsOf]
  rw [foldlM_congr _ (fun (s : FVals fs × Option Idx) a =>
      step fs s.1 a.1 (.mk n (attrs.filter fun a => decide (a.1 ∈ fs.names)) text (kids.filter fun k => decide (nm k ∈ fs.names))) a.2 s.2) attrs
      (fun a ha s => step_cur fs s.1 a.1 (h a ha) _ _ a.2 s.2),
    foldlM_filter _ (fun a => decide (a.1 ∈ fs.names)) attrs (fun a _ hp s => step_unknown fs s.1 a.1 (by simpa using hp) _ a.2 s.2)]
  congr 1
  funext s
  rw [foldlM_filter _ (fun k => decide (nm k ∈ fs.names)) kids (fun k _ hp s => step_unknown fs s.1 (nm k) (by simpa using hp) _ (textOf k) s.2)]

/-! ## Examples and counterexamples -/

/-- A structure with an integer, a string, a structure, a vector of strings and a pair. -/
def sample : Ty := .obj (.cons ['a'] (.int true 16) (.cons ['s'] .str (.cons ['o'] (.obj (.cons ['b'] .bool .nil)) (.cons ['f'] (.vec .str)
  (.cons ['p'] (.fix true (.cons (.int false 64) (.cons .bool .nil))) .nil)))))

def sampleV : Val sample := ((-3 : Int), ['x', ' ', '<'], (true, ()), [['u'], []], ((2 ^ 64 - 1 : Int), false, ()), ())

theorem name1 {c : Char} (h : '!' ≤ c ∧ c ∉ special) (h2 : c.toNat < 128) : NameOk [c] := ⟨fun d hd => by rw [List.mem_singleton.1 hd]; exact h, c, rfl, h2⟩

example : sample.simple = false ∧ sample.Flat ∧ Fine sample sampleV false ∧ Fresh sample (blank sample) ∧ NameOk ['r'] := by
  refine ⟨rfl, ?_, ?_, blank_fresh _, name1 (by decide) (by decide)⟩
  · simp only [sample, Ty.Flat, Fields.Flat, Tys.Flat, Fields.names, Ty.arr]
    refine ⟨by decide, ?_, by decide, trivial, ⟨by decide, ?_, trivial, trivial⟩, ⟨trivial, trivial⟩, ⟨trivial, by decide, trivial, trivial, trivial⟩, trivial⟩
    · intro n hn
      simp only [List.mem_cons, List.not_mem_nil, or_false] at hn
      rcases hn with rfl | rfl | rfl | rfl | rfl <;> exact name1 (by decide) (by decide)
    · intro n hn
      simp only [List.mem_cons, List.not_mem_nil, or_false] at hn
      subst hn
      exact name1 (by decide) (by decide)
  · simp only [sample, sampleV, Fine, FineF, FineA, TextOk]
    refine ⟨by decide, ?_, ⟨trivial, trivial⟩, ?_, ⟨by decide, trivial, trivial⟩, trivial⟩
    · simp [AttrOk]
    · intro v hv
      simp only [List.mem_cons, List.not_mem_nil, or_false] at hv
      rcases hv with rfl | rfl <;> (rw [if_pos trivial]; decide)

example : writeX false sample sampleV (some ['r']) =
    "<r a=\"-3\" s=\"x <\"><o b=\"true\"/><f>u</f><f/><p>-1</p><p>false</p></r>".toList := by decide +kernel

/-- Without a name (the default) the object is written in an element without a name, which is not found again. -/
theorem C197_name_counterexample : let t := Ty.obj (.cons ['a'] (.int true 32) .nil)
    writeX false t ((5 : Int), ()) none = "< a=\"5\"/>".toList ∧ parseX t ((0 : Int), ()) none (writeX false t ((5 : Int), ()) none) = some ((0 : Int), ()) := by
  decide +kernel

/-- The elements of a vector of vectors are written in elements without a name, which are not found again. -/
theorem C197_nested_counterexample : let t := Ty.vec (.vec (.int true 32))
    writeX false t ([[1, 2], [3]] : List (List Int)) (some ['a']) = "<>1</><>2</><>3</>".toList ∧
    parseX t ([] : List (List Int)) (some ['a']) (writeX false t ([[1, 2], [3]] : List (List Int)) (some ['a'])) = some ([] : List (List Int)) := by
  decide +kernel

/-- A number that is not part of a structure or an array uses a null pointer. -/
theorem C197_number_counterexample : parseX (.int true 32) (0 : Int) (some ['a']) (writeX false (.int true 32) (5 : Int) (some ['a'])) = none := by
  decide +kernel

/-- A string with a quote comes back with the entity. -/
theorem C197_quote_counterexample : let t := Ty.obj (.cons ['s'] .str .nil)
    parseX t (([] : List Char), ()) (some ['r']) (writeX false t (['"'], ()) (some ['r'])) = some ("&quot;".toList, ()) := by
  decide +kernel

/-- Reading into a vector that is not empty appends. -/
theorem C197_append_counterexample : let t := Ty.vec (.int true 32)
    parseX t ([7] : List Int) (some ['a']) (writeX false t ([1] : List Int) (some ['a'])) = some ([7, 1] : List Int) := by
  decide +kernel

/-- An attribute with the name of a member that is a structure: that structure is filled from the attributes of the outer one. -/
theorem C197_attribute_counterexample : let t := Ty.obj (.cons ['o'] (.obj (.cons ['a'] (.int true 32) .nil)) (.cons ['a'] (.int true 32) .nil))
    parseX t (((0 : Int), ()), (0 : Int), ()) (some ['r']) "<r o=\"\" a=\"5\"/>".toList = some (((5 : Int), ()), (5 : Int), ()) := by
  decide +kernel

end Verif.XmlTyped
