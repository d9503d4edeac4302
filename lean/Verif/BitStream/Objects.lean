import Verif.BitStream.Props
import Verif.Common.Run

/-!
# `BitStream` objects (C205)

Several `BitStream` objects for writing, on several streams: construction, copies, moves, assignments, `Flush` and destruction, `/repo/include/bss-util/BitStream.h:17-20, 81-84`. What `Write`
does is `Verif/BitStream/Model`.
-/

namespace Verif.BitStream.Objects

/-- A `BitStream`, `BitStream.h:96-99`: the stream (null after a move), `_buf` and `_woffset`. -/
structure Obj where
  base : Option Nat
  buf : Nat
  woff : Nat

/-- The objects and the bytes that were put into each stream. -/
structure World where
  objs : Nat → Option Obj
  streams : Nat → List Nat

def upd {α : Type} (f : Nat → α) (i : Nat) (v : α) : Nat → α := fun j => if j = i then v else f j

/-- The calls. -/
inductive Op
  | make (o s : Nat)
  | write (o : Nat) (q : List Nat × Nat)
  | flush (o : Nat)
  | copy (o p : Nat)
  | move (o p : Nat)
  | assign (o p : Nat)
  | moveAssign (o p : Nat)
  | destroy (o : Nat)

/-- `Flush`, `BitStream.h:81`; a stream that is null is not valid. -/
def flushObj (w : World) (x : Obj) : Option World :=
  if x.woff ≠ 0 then x.base.map fun s => { w with streams := upd w.streams s (w.streams s ++ [x.buf]) } else some w

/-- One call; `none` is the use of a null stream or of an object that is not there. -/
def step : Op → World → Option (World × Unit)
  -- `explicit BitStream(STREAM&)`, `BitStream.h:19`
  | .make o s, w => some ({ w with objs := upd w.objs o (some ⟨some s, 0, 0⟩) }, ())
  -- `Write`, `BitStream.h:21-47`
  | .write o q, w => (w.objs o).bind fun x => x.base.bind fun s => (BitStream.write q.1 q.2 ⟨w.streams s, x.buf, x.woff⟩).map fun st =>
      (⟨upd w.objs o (some ⟨some s, st.buf, st.woff⟩), upd w.streams s st.out⟩, ())
  -- `Flush`, `BitStream.h:81`
  | .flush o, w => (w.objs o).bind fun x => (flushObj w x).map fun w => (w, ())
  -- `BitStream(const BitStream&)`, `BitStream.h:17`
  | .copy o p, w => (w.objs p).map fun x => ({ w with objs := upd w.objs o (some x) }, ())
  -- `BitStream(BitStream&&)`, `BitStream.h:18`
  | .move o p, w => (w.objs p).map fun x => ({ w with objs := upd (upd w.objs p (some { x with base := none })) o (some x) }, ())
  -- `operator=(const BitStream&)`, `BitStream.h:83`
  | .assign o p, w => (w.objs o).bind fun y => (w.objs p).map fun x => ({ w with objs := upd w.objs o (some { y with base := x.base }) }, ())
  -- `operator=(BitStream&&)`, `BitStream.h:84`
  | .moveAssign o p, w => (w.objs o).bind fun y => (w.objs p).map fun x =>
      ({ w with objs := upd (upd w.objs o (some { y with base := x.base })) p (some { x with base := none }) }, ())
  -- `~BitStream`, `BitStream.h:20`
  | .destroy o, w => (w.objs o).bind fun x => (if x.base.isSome then flushObj w x else some w).map fun w => ({ w with objs := upd w.objs o none }, ())

/-- No objects, empty streams. -/
def World.init : World := ⟨fun _ => none, fun _ => []⟩

/-! ## Specification: an object owns its stream and has a list of requests; who is moved from owns nothing -/

/-- What an object is: not there, moved from, or the owner of a stream with the requests so far. -/
inductive Role
  | none
  | empty
  | owner (s : Nat) (qs : List (List Nat × Nat))

/-- The objects, and the streams: not used, in use, or finished with these requests. -/
structure Spec where
  role : Nat → Role
  used : Nat → Bool
  done : Nat → Option (List (List Nat × Nat))

def Spec.init : Spec := ⟨fun _ => .none, fun _ => false, fun _ => none⟩

/-- What is meant to happen; the other calls, which the code gets wrong, are left out. -/
def Spec.step : Op → Spec → Option (Spec × Unit)
  | .make o s, p => match p.role o, p.used s with
    | .none, false => some (⟨upd p.role o (.owner s []), upd p.used s true, p.done⟩, ())
    | _, _ => Option.none
  | .write o q, p => match p.role o with
    | .owner s qs => if (∀ b ∈ q.1, b < 256) ∧ q.2 ≤ 8 * q.1.length then some ({ p with role := upd p.role o (.owner s (qs ++ [q])) }, ()) else Option.none
    | _ => Option.none
  | .move o o', p => match p.role o, p.role o' with
    | .none, .owner s qs => some ({ p with role := upd (upd p.role o' .empty) o (.owner s qs) }, ())
    | _, _ => Option.none
  | .destroy o, p => match p.role o with
    | .owner s qs => some (⟨upd p.role o .none, p.used, upd p.done s (some qs)⟩, ())
    | .empty => some ({ p with role := upd p.role o .none }, ())
    | .none => Option.none
  | _, _ => Option.none

/-! ## Lemmas -/

theorem writeAll_append : ∀ (qs : List (List Nat × Nat)) (q : List Nat × Nat) (st : W), writeAll (qs ++ [q]) st = (writeAll qs st).bind fun st => BitStream.write q.1 q.2 st := by
  intro qs
  induction qs with
  | nil => intro q st; simp only [List.nil_append, writeAll, Option.bind_some]; cases BitStream.write q.1 q.2 st <;> rfl
  | cons a qs ih =>
    intro q st
    simp only [List.cons_append, writeAll]
    cases BitStream.write a.1 a.2 st with
    | none => rfl
    | some st' => exact ih q st'

/-- The objects are as they are meant to be. -/
structure Rel (p : Spec) (w : World) : Prop where
  gone : ∀ o, p.role o = .none → w.objs o = none
  empty : ∀ o, p.role o = .empty → ∃ x, w.objs o = some x ∧ x.base = none
  owner : ∀ o s qs, p.role o = .owner s qs → p.used s = true ∧ p.done s = none ∧ (∀ q ∈ qs, Req.Ok q) ∧ ∃ st, writeAll qs W.init = some st ∧ w.objs o = some ⟨some s, st.buf, st.woff⟩ ∧ w.streams s = st.out
  alone : ∀ o o' s qs qs', p.role o = .owner s qs → p.role o' = .owner s qs' → o = o'
  fresh : ∀ s, p.used s = false → w.streams s = [] ∧ p.done s = none
  finished : ∀ s qs, p.done s = some qs → (∀ q ∈ qs, Req.Ok q) ∧ ∃ st, writeAll qs W.init = some st ∧ w.streams s = flush st

theorem upd_same {α : Type} (f : Nat → α) (i : Nat) (v : α) : upd f i v i = v := by simp [upd]
theorem upd_ne {α : Type} (f : Nat → α) {i j : Nat} (v : α) (h : j ≠ i) : upd f i v j = f j := by simp [upd, h]

theorem step_sim : ∀ (op : Op) (p : Spec) (w : World) (p' : Spec) (r : Unit), Rel p w → Spec.step op p = some (p', r) → ∃ w', step op w = some (w', r) ∧ Rel p' w' := by
  intro op p w p' r h hs
  cases op with
  | make o s =>
    simp only [Spec.step] at hs
    split at hs
    · next hr hu =>
      simp only [Option.some.injEq, Prod.mk.injEq, and_true] at hs
      subst hs
      have hne : ∀ o' s' qs', p.role o' = .owner s' qs' → s' ≠ s := by
        rintro o' s' qs' ho rfl; rw [(h.owner _ _ _ ho).1] at hu; cases hu
      refine ⟨_, rfl, ?_, ?_, ?_, ?_, ?_, h.finished⟩
      · intro o' ho'
        by_cases hoo : o' = o
        · subst hoo; simp [upd] at ho'
        · simp only [upd_ne _ _ hoo] at ho'; simp only [upd_ne _ _ hoo]; exact h.gone o' ho'
      · intro o' ho'
        by_cases hoo : o' = o
        · subst hoo; simp [upd] at ho'
        · simp only [upd_ne _ _ hoo] at ho'; simp only [upd_ne _ _ hoo]; exact h.empty o' ho'
      · intro o' s' qs' ho'
        by_cases hoo : o' = o
        · subst hoo
          simp only [upd_same, Role.owner.injEq] at ho'
          obtain ⟨rfl, rfl⟩ := ho'
          exact ⟨upd_same _ _ _, (h.fresh _ hu).2, by simp, W.init, rfl, by simp [upd_same, W.init], by simp [W.init, (h.fresh _ hu).1]⟩
        · simp only [upd_ne _ _ hoo] at ho'
          obtain ⟨g1, g2, g3, g4⟩ := h.owner o' s' qs' ho'
          refine ⟨?_, g2, g3, ?_⟩
          · simp only [upd]; split <;> simp [g1]
          · simpa only [upd_ne _ _ hoo] using g4
      · intro a b s' qa qb ha hb
        by_cases h1 : a = o <;> by_cases h2 : b = o
        · rw [h1, h2]
        · subst h1
          simp only [upd_ne _ _ h2] at hb
          simp only [upd_same, Role.owner.injEq] at ha
          exact absurd ha.1.symm (hne _ _ _ hb)
        · subst h2
          simp only [upd_ne _ _ h1] at ha
          simp only [upd_same, Role.owner.injEq] at hb
          exact absurd hb.1.symm (hne _ _ _ ha)
        · simp only [upd_ne _ _ h1] at ha; simp only [upd_ne _ _ h2] at hb; exact h.alone a b s' qa qb ha hb
      · intro s' hs'
        refine h.fresh s' ?_
        simp only [upd] at hs'
        split at hs'
        · cases hs'
        · exact hs'
    · cases hs
  | write o q =>
    simp only [Spec.step] at hs
    split at hs
    · next s qs hr =>
      split at hs
      · next hq =>
        simp only [Option.some.injEq, Prod.mk.injEq, and_true] at hs
        subst hs
        obtain ⟨g1, g2, g3, st, g4, g5, g6⟩ := h.owner o s qs hr
        have hall : ∀ q' ∈ qs ++ [q], Req.Ok q' := by
          intro q' hm
          rcases List.mem_append.1 hm with hm | hm
          · exact g3 q' hm
          · rw [List.mem_singleton.1 hm]; exact hq
        obtain ⟨st', _, _, e0, _⟩ := C12_round_trip hall
        have e2 := e0
        rw [writeAll_append, g4, Option.bind_some] at e2
        have hst : (⟨w.streams s, st.buf, st.woff⟩ : W) = st := by rw [g6]
        have hne : ∀ o' s' qs', o' ≠ o → p.role o' = .owner s' qs' → s' ≠ s := by
          rintro o' s' qs' hoo ho rfl; exact hoo (h.alone _ _ _ _ _ ho hr)
        refine ⟨⟨upd w.objs o (some ⟨some s, st'.buf, st'.woff⟩), upd w.streams s st'.out⟩, ?_, ?_, ?_, ?_, ?_, ?_, ?_⟩
        · simp only [step, g5, Option.bind_some, hst, e2, Option.map_some]
        · intro o' ho'
          by_cases hoo : o' = o
          · subst hoo; simp [upd] at ho'
          · simp only [upd_ne _ _ hoo] at ho'; simp only [upd_ne _ _ hoo]; exact h.gone o' ho'
        · intro o' ho'
          by_cases hoo : o' = o
          · subst hoo; simp [upd] at ho'
          · simp only [upd_ne _ _ hoo] at ho'; simp only [upd_ne _ _ hoo]; exact h.empty o' ho'
        · intro o' s' qs' ho'
          by_cases hoo : o' = o
          · subst hoo
            simp only [upd_same, Role.owner.injEq] at ho'
            obtain ⟨rfl, rfl⟩ := ho'
            exact ⟨g1, g2, hall, st', e0, upd_same _ _ _, upd_same _ _ _⟩
          · simp only [upd_ne _ _ hoo] at ho'
            have := h.owner o' s' qs' ho'
            simpa only [upd_ne _ _ hoo, upd_ne _ _ (hne o' s' qs' hoo ho')] using this
        · intro a b s' qa qb ha hb
          by_cases h1 : a = o <;> by_cases h2 : b = o
          · rw [h1, h2]
          · subst h1
            simp only [upd_ne _ _ h2] at hb
            simp only [upd_same, Role.owner.injEq] at ha
            exact absurd ha.1.symm (hne _ _ _ h2 hb)
          · subst h2
            simp only [upd_ne _ _ h1] at ha
            simp only [upd_same, Role.owner.injEq] at hb
            exact absurd hb.1.symm (hne _ _ _ h1 ha)
          · simp only [upd_ne _ _ h1] at ha; simp only [upd_ne _ _ h2] at hb; exact h.alone a b s' qa qb ha hb
        · intro s' hs'
          have : s' ≠ s := by rintro rfl; rw [g1] at hs'; cases hs'
          simp only [upd_ne _ _ this]; exact h.fresh s' hs'
        · intro s' qs' hs'
          have : s' ≠ s := by rintro rfl; rw [g2] at hs'; cases hs'
          simp only [upd_ne _ _ this]; exact h.finished s' qs' hs'
      · cases hs
    · cases hs
  | flush o => cases hs
  | copy o o' => cases hs
  | assign o o' => cases hs
  | moveAssign o o' => cases hs
  | move o c =>
    simp only [Spec.step] at hs
    split at hs
    · next s qs hr hc =>
      simp only [Option.some.injEq, Prod.mk.injEq, and_true] at hs
      subst hs
      have hoc : o ≠ c := by rintro rfl; rw [hr] at hc; cases hc
      obtain ⟨g1, g2, g3, st, g4, g5, g6⟩ := h.owner c s qs hc
      refine ⟨⟨upd (upd w.objs c (some ⟨none, st.buf, st.woff⟩)) o (some ⟨some s, st.buf, st.woff⟩), w.streams⟩, by simp only [step, g5, Option.map_some], ?_, ?_, ?_, ?_, h.fresh, h.finished⟩
      · intro o' ho'
        by_cases h1 : o' = o
        · subst h1; simp [upd] at ho'
        · by_cases h2 : o' = c
          · subst h2; simp [upd, h1] at ho'
          · simp only [upd_ne _ _ h1, upd_ne _ _ h2] at ho' ⊢; exact h.gone o' ho'
      · intro o' ho'
        by_cases h1 : o' = o
        · subst h1; simp [upd] at ho'
        · by_cases h2 : o' = c
          · subst h2; simp only [upd_ne _ _ h1, upd_same]; exact ⟨_, rfl, rfl⟩
          · simp only [upd_ne _ _ h1, upd_ne _ _ h2] at ho' ⊢; exact h.empty o' ho'
      · intro o' s' qs' ho'
        by_cases h1 : o' = o
        · subst h1
          simp only [upd_same, Role.owner.injEq] at ho'
          obtain ⟨rfl, rfl⟩ := ho'
          exact ⟨g1, g2, g3, st, g4, upd_same _ _ _, g6⟩
        · by_cases h2 : o' = c
          · subst h2; simp [upd, h1] at ho'
          · simp only [upd_ne _ _ h1, upd_ne _ _ h2] at ho' ⊢; exact h.owner o' s' qs' ho'
      · have key : ∀ a s' qa, upd (upd p.role c .empty) o (.owner s qs) a = .owner s' qa → ∃ a' qa', p.role a' = .owner s' qa' ∧ (a = o ∧ a' = c ∨ a ≠ o ∧ a' = a ∧ a ≠ c) := by
          intro a s' qa ha
          by_cases h1 : a = o
          · subst h1
            simp only [upd_same, Role.owner.injEq] at ha
            exact ⟨c, qs, by rw [hc, ha.1], Or.inl ⟨rfl, rfl⟩⟩
          · by_cases h2 : a = c
            · subst h2; simp [upd, h1] at ha
            · simp only [upd_ne _ _ h1, upd_ne _ _ h2] at ha
              exact ⟨a, qa, ha, Or.inr ⟨h1, rfl, h2⟩⟩
        intro a b s' qa qb ha hb
        obtain ⟨a', qa', ka, ka'⟩ := key a s' qa ha
        obtain ⟨b', qb', kb, kb'⟩ := key b s' qb hb
        have := h.alone a' b' s' qa' qb' ka kb
        rcases ka' with ⟨x1, x2⟩ | ⟨x1, x2, x3⟩ <;> rcases kb' with ⟨y1, y2⟩ | ⟨y1, y2, y3⟩
        · rw [x1, y1]
        · exact absurd (by rw [← y2, ← this, x2]) y3
        · exact absurd (by rw [← x2, this, y2]) x3
        · rw [← x2, ← y2, this]
    · cases hs
  | destroy o =>
    simp only [Spec.step] at hs
    split at hs
    · next s qs hr =>
      simp only [Option.some.injEq, Prod.mk.injEq, and_true] at hs
      subst hs
      obtain ⟨g1, g2, g3, st, g4, g5, g6⟩ := h.owner o s qs hr
      have hne : ∀ o' s' qs', o' ≠ o → p.role o' = .owner s' qs' → s' ≠ s := by
        rintro o' s' qs' hoo ho rfl; exact hoo (h.alone _ _ _ _ _ ho hr)
      have hfl : ∃ w', flushObj w ⟨some s, st.buf, st.woff⟩ = some w' ∧ w'.objs = w.objs ∧ w'.streams = upd w.streams s (flush st) := by
        by_cases hw : st.woff = 0
        · refine ⟨w, by simp [flushObj, hw], rfl, ?_⟩
          funext j
          by_cases hj : j = s
          · subst hj; simp [upd, flush, hw, g6]
          · simp [upd, hj]
        · exact ⟨{ w with streams := upd w.streams s (w.streams s ++ [st.buf]) }, by simp only [flushObj, ne_eq, hw, not_false_eq_true, if_true, Option.map_some], rfl, by simp [flush, hw, g6]⟩
      obtain ⟨w', e1, e2, e3⟩ := hfl
      refine ⟨{ w' with objs := upd w'.objs o none }, by simp [step, g5, e1], ?_, ?_, ?_, ?_, ?_, ?_⟩
      · intro o' ho'
        by_cases hoo : o' = o
        · subst hoo; simp [upd_same]
        · simp only [upd_ne _ _ hoo] at ho'; simp only [upd_ne _ _ hoo, e2]; exact h.gone o' ho'
      · intro o' ho'
        by_cases hoo : o' = o
        · subst hoo; simp [upd] at ho'
        · simp only [upd_ne _ _ hoo] at ho'; simp only [upd_ne _ _ hoo, e2]; exact h.empty o' ho'
      · intro o' s' qs' ho'
        by_cases hoo : o' = o
        · subst hoo; simp [upd] at ho'
        · simp only [upd_ne _ _ hoo] at ho'
          have hx := hne o' s' qs' hoo ho'
          have := h.owner o' s' qs' ho'
          simpa only [upd_ne _ _ hoo, upd_ne _ _ hx, e2, e3] using this
      · intro a b s' qa qb ha hb
        by_cases h1 : a = o
        · subst h1; simp [upd] at ha
        · by_cases h2 : b = o
          · subst h2; simp [upd] at hb
          · simp only [upd_ne _ _ h1] at ha; simp only [upd_ne _ _ h2] at hb; exact h.alone a b s' qa qb ha hb
      · intro s' hs'
        have : s' ≠ s := by rintro rfl; rw [g1] at hs'; cases hs'
        simp only [upd_ne _ _ this, e3]; exact h.fresh s' hs'
      · intro s' qs' hs'
        by_cases hss : s' = s
        · subst hss
          simp only [upd_same, Option.some.injEq] at hs'
          subst hs'
          exact ⟨g3, st, g4, by simp only [e3, upd_same]⟩
        · simp only [upd_ne _ _ hss, e3] at hs' ⊢; exact h.finished s' qs' hs'
    · next hr =>
      simp only [Option.some.injEq, Prod.mk.injEq, and_true] at hs
      subst hs
      obtain ⟨x, e1, e2⟩ := h.empty o hr
      refine ⟨{ w with objs := upd w.objs o none }, by simp [step, e1, e2], ?_, ?_, ?_, ?_, h.fresh, h.finished⟩
      · intro o' ho'
        by_cases hoo : o' = o
        · subst hoo; simp [upd_same]
        · simp only [upd_ne _ _ hoo] at ho'; simp only [upd_ne _ _ hoo]; exact h.gone o' ho'
      · intro o' ho'
        by_cases hoo : o' = o
        · subst hoo; simp [upd] at ho'
        · simp only [upd_ne _ _ hoo] at ho'; simp only [upd_ne _ _ hoo]; exact h.empty o' ho'
      · intro o' s' qs' ho'
        by_cases hoo : o' = o
        · subst hoo; simp [upd] at ho'
        · simp only [upd_ne _ _ hoo] at ho'; simp only [upd_ne _ _ hoo]; exact h.owner o' s' qs' ho'
      · intro a b s' qa qb ha hb
        by_cases h1 : a = o
        · subst h1; simp [upd] at ha
        · by_cases h2 : b = o
          · subst h2; simp [upd] at hb
          · simp only [upd_ne _ _ h1] at ha; simp only [upd_ne _ _ h2] at hb; exact h.alone a b s' qa qb ha hb
    · cases hs

/-! ## C205 -/

/-- **C205**, for construction, writing, moving and destruction: when the last owner of a stream is destroyed, the stream has exactly the bits that were written by all its owners, in order and filled
up to a whole byte; reading gives the values back. Missing because the code does not do it: `Flush` before the end, copies and assignments. -/
theorem C205_moves_partial (ops : List Op) (p : Spec) (rs : List Unit) (h : runAll Spec.step ops Spec.init = some (p, rs)) :
    ∃ w, runAll step ops World.init = some (w, rs) ∧ ∀ s qs, p.done s = some qs →
      (w.streams s).length = ((qs.map (·.2)).sum + 7) / 8 ∧ ∃ ds r, readAll qs (R.init (w.streams s)) = some (ds, r) ∧ ds.length = qs.length ∧
        ∀ (i : Nat) (d : List Nat) (q : List Nat × Nat), ds[i]? = some d → qs[i]? = some q → d.length = q.1.length ∧ val d = val q.1 % 2 ^ q.2 := by
  have h0 : Rel Spec.init World.init :=
    ⟨fun _ _ => rfl, fun o ho => by simp [Spec.init] at ho, fun o s qs ho => by simp [Spec.init] at ho, fun o o' s qs qs' ho => by simp [Spec.init] at ho,
      fun s _ => ⟨rfl, rfl⟩, fun s qs ho => by simp [Spec.init] at ho⟩
  obtain ⟨w, e1, e2⟩ := runAll_sim (R := Rel) step_sim ops Spec.init World.init p rs h0 h
  refine ⟨w, e1, fun s qs hs => ?_⟩
  obtain ⟨g1, st, g2, g3⟩ := e2.finished s qs hs
  obtain ⟨st', ds, r, f1, f2, f3, f4, f5⟩ := C12_round_trip g1
  rw [g2] at f1
  cases f1
  rw [g3]
  exact ⟨f3, ds, r, f2, f4, f5⟩

/-- `Flush` and then the destructor put an unfinished byte twice, always. -/
theorem C205_flush_counterexample (w : World) (o s buf woff : Nat) (hw : woff ≠ 0) (ho : w.objs o = some ⟨some s, buf, woff⟩) :
    ∃ w', runAll step [.flush o, .destroy o] w = some (w', [(), ()]) ∧ w'.streams s = w.streams s ++ [buf, buf] := by
  refine ⟨⟨upd w.objs o none, upd (upd w.streams s (w.streams s ++ [buf])) s (upd w.streams s (w.streams s ++ [buf]) s ++ [buf])⟩, ?_, ?_⟩
  · simp [runAll, step, ho, flushObj, hw]
  · simp [upd]

/-- After `Flush` the next bits are put behind the old ones once more: of 3 bits and 8 bits with a `Flush` between them, the second value is not what is read. -/
theorem C205_flush_between_counterexample :
    (runAll step [.make 0 0, .write 0 ([5], 3), .flush 0, .write 0 ([255], 8), .destroy 0] World.init).map (fun r => r.1.streams 0) = some [5, 253, 7] := by decide

/-- A copy puts the unfinished byte too; an assignment loses the unfinished bits of the source. -/
theorem C205_copy_counterexample :
    (runAll step [.make 0 0, .write 0 ([5], 3), .copy 1 0, .destroy 0, .destroy 1] World.init).map (fun r => r.1.streams 0) = some [5, 5] ∧
    (runAll step [.make 0 0, .write 0 ([5], 3), .make 1 1, .moveAssign 1 0, .destroy 0, .destroy 1] World.init).map (fun r => (r.1.streams 0, r.1.streams 1)) = some ([], []) ∧
    (runAll step [.make 0 0, .make 1 1, .write 1 ([5], 3), .moveAssign 1 0, .destroy 0, .destroy 1] World.init).map (fun r => (r.1.streams 0, r.1.streams 1)) = some ([5], []) := by decide

/-- Two streams, one moved between the writes. -/
example : (runAll Spec.step [.make 0 0, .write 0 ([5], 3), .make 1 7, .write 1 ([1], 1), .move 2 0, .write 2 ([255, 1], 9), .destroy 0, .destroy 2, .destroy 1] Spec.init).map (fun r => (r.1.done 0, r.1.done 7)) =
      some (some [([5], 3), ([255, 1], 9)], some [([1], 1)]) ∧
    (runAll step [.make 0 0, .write 0 ([5], 3), .make 1 7, .write 1 ([1], 1), .move 2 0, .write 2 ([255, 1], 9), .destroy 0, .destroy 2, .destroy 1] World.init).map (fun r => (r.1.streams 0, r.1.streams 7)) =
      some ([253, 15], [1]) := by decide

end Verif.BitStream.Objects
