import Verif.Heap.SModel
import Verif.Heap.Lemmas2

/-!
# The scheduler (C68)
-/

namespace Verif.Heap

/-! ## Specification -/

/-- The events `l`, called in this order from call `k` on, that are to be called again: due from the current time on after what they answered. -/
def again (now : Int) (ans : Nat → Int) : Nat → List (Int × Nat) → List (Int × Nat)
  | _, [] => []
  | k, e :: l => (if ans k = 0 then [] else [(now + ans k, e.2)]) ++ again now ans (k + 1) l

/-! ## Proof -/

theorem dueCmp_ord : CmpOrd dueCmp := ⟨fun a b => by simp only [dueCmp]; omega, fun a b c h1 h2 => by simp only [dueCmp] at *; omega⟩

theorem fire_spec (now : Int) (ans : Nat → Int) (hans : ∀ k, 0 ≤ ans k) : ∀ (n fuel k : Nat) (a : List (Int × Nat)), Spec.IsHeap dueCmp a →
    (a.filter fun e => e.1 ≤ now).length = n → n < fuel → ((∃ e ∈ a, now < e.1) ∨ ∃ j < n, ans (k + j) ≠ 0) →
    ∃ fired a', fire now ans fuel k a = some (fired, a') ∧ Spec.IsHeap dueCmp a' ∧ fired.Perm (a.filter fun e => e.1 ≤ now) ∧
      fired.Pairwise (fun x y => x.1 ≤ y.1) ∧ a'.Perm ((a.filter fun e => now < e.1) ++ again now ans k fired) := by
  intro n
  induction n with
  | zero =>
    intro fuel k a hh hn hf hc
    cases fuel with
    | zero => omega
    | succ fuel =>
      have hall : ∀ e ∈ a, now < e.1 := by
        intro e he
        refine Int.not_le.1 fun hle => ?_
        have : e ∈ a.filter fun e => e.1 ≤ now := List.mem_filter.2 ⟨he, by simpa using hle⟩
        rw [List.length_eq_zero_iff.1 hn] at this
        cases this
      have hpos : 0 < a.length := by
        rcases hc with ⟨e, he, _⟩ | ⟨j, hj, _⟩
        · exact List.length_pos_of_mem he
        · omega
      refine ⟨[], a, ?_, hh, ?_, List.Pairwise.nil, ?_⟩
      · rw [fire, peek, rd_of_lt hpos, Option.bind_some, if_neg (by have := hall a[0] (List.getElem_mem hpos); omega)]
      · rw [List.length_eq_zero_iff.1 hn]
      · rw [List.filter_eq_self.2 (by simpa using hall)]
        simp [again]
  | succ n ih =>
    intro fuel k a hh hn hf hc
    cases fuel with
    | zero => omega
    | succ fuel =>
      have hpos : 0 < a.length := by
        have := List.length_filter_le (fun e : Int × Nat => decide (e.1 ≤ now)) a
        omega
      have hget : a[0]? = some a[0] := List.getElem?_eq_getElem hpos
      have hmin : ∀ e ∈ a, a[0].1 ≤ e.1 := by
        intro e he
        have := heap_root_max dueCmp_ord hh hget e he
        simp only [dueCmp] at this
        omega
      have hdue : a[0].1 ≤ now := by
        obtain ⟨e, he⟩ := List.exists_mem_of_length_pos (l := a.filter fun e => e.1 ≤ now) (by omega)
        have h1 := hmin e (List.mem_filter.1 he).1
        have h2 : e.1 ≤ now := by simpa using (List.mem_filter.1 he).2
        omega
      rw [fire, peek, rd_of_lt hpos, Option.bind_some, if_pos hdue]
      generalize htop : a[0] = top at hget hmin hdue
      by_cases hz : ans k = 0
      · obtain ⟨r, e1, h1, hp⟩ := remove_spec dueCmp_ord hh hpos (fun _ _ h => absurd h (Nat.lt_irrefl _))
        rw [htop] at hp
        have hf1 := hp.filter fun e => decide (e.1 ≤ now)
        rw [List.filter_cons_of_pos (by simpa using hdue)] at hf1
        have hf2 := hp.filter fun e => decide (now < e.1)
        rw [List.filter_cons_of_neg (by simpa using hdue)] at hf2
        have hl := hf1.length_eq
        rw [hn, List.length_cons] at hl
        obtain ⟨fired, a', g1, g2, g3, g4, g5⟩ := ih fuel (k + 1) r h1 (by omega) (by omega) (by
          rcases hc with ⟨e, he, hlt⟩ | ⟨j, hj, hne⟩
          · rcases List.mem_cons.1 (hp.mem_iff.1 he) with rfl | he'
            · omega
            · exact .inl ⟨e, he', hlt⟩
          · cases j with
            | zero => exact absurd hz (by simpa using hne)
            | succ j => exact .inr ⟨j, by omega, by rwa [show k + 1 + j = k + (j + 1) by omega]⟩)
        refine ⟨top :: fired, a', ?_, g2, (g3.cons top).trans hf1.symm, ?_, ?_⟩
        · rw [if_pos hz, e1, Option.bind_some, g1, Option.map_some]
        · refine List.pairwise_cons.2 ⟨fun y hy => ?_, g4⟩
          have : y ∈ r := (List.mem_filter.1 (g3.mem_iff.1 hy)).1
          exact hmin y (hp.mem_iff.2 (List.mem_cons_of_mem _ this))
        · simp only [again, if_pos hz, List.nil_append]
          exact g5.trans (hf2.symm.append_right _)
      · have hans' : 0 < ans k := by have := hans k; omega
        obtain ⟨r, e1, h1, hp⟩ := set_spec dueCmp_ord hh hpos (ans k + now, top.2)
        obtain ⟨t, l, rfl⟩ : ∃ t l, a = t :: l := by
          cases a with
          | nil => simp at hpos
          | cons t l => exact ⟨t, l, rfl⟩
        simp only [List.getElem_cons_zero] at htop
        subst htop
        simp only [List.set_cons_zero] at hp
        have hf1 := hp.filter fun e => decide (e.1 ≤ now)
        rw [List.filter_cons_of_neg (by simp; omega)] at hf1
        have hf2 := hp.filter fun e => decide (now < e.1)
        rw [List.filter_cons_of_pos (by simp; omega)] at hf2
        rw [List.filter_cons_of_pos (by simpa using hdue), List.length_cons] at hn
        have hl := hf1.length_eq
        obtain ⟨fired, a', g1, g2, g3, g4, g5⟩ := ih fuel (k + 1) r h1 (by omega) (by omega)
          (.inl ⟨(ans k + now, t.2), hp.mem_iff.2 List.mem_cons_self, by simp only; omega⟩)
        refine ⟨t :: fired, a', ?_, g2, ?_, ?_, ?_⟩
        · rw [if_neg hz, e1, Option.bind_some, g1, Option.map_some]
        · rw [List.filter_cons_of_pos (by simpa using hdue)]
          exact (g3.trans hf1).cons t
        · refine List.pairwise_cons.2 ⟨fun y hy => ?_, g4⟩
          have : y ∈ l := (List.mem_filter.1 ((g3.trans hf1).mem_iff.1 hy)).1
          exact hmin y (List.mem_cons_of_mem _ this)
        · rw [List.filter_cons_of_neg (by simpa using hdue)]
          simp only [again, if_neg hz, List.singleton_append]
          have h3 := g5.trans (hf2.append_right _)
          rw [Int.add_comm now]
          exact h3.trans (List.perm_middle (l₁ := l.filter _)).symm

/-- **C68**: the scheduler as a bag of events. `Add(t)` queues an event due `t` from now. `Update` after `dt`, when every callback answers 0 (do not repeat) or a positive
delay, calls exactly the events due by the new time, each once, in order of due time, and leaves the others and those to be repeated, due after the delay they
answered — provided an event is left at the end, that is, some event is not due or some callback asks to be repeated. From an empty scheduler on, over any such
history. -/
theorem C68_scheduler : ∃ R : Sched → Int → List (Int × Nat) → Prop, R ⟨0, []⟩ 0 [] ∧
    ∀ s now events, R s now events →
      (∀ t id, ∃ s', s.add t id = some s' ∧ R s' now ((now + t, id) :: events)) ∧
      (∀ dt ans fuel, (∀ k, 0 ≤ ans k) → events.length < fuel →
        ((∃ e ∈ events, now + dt < e.1) ∨ ∃ j < (events.filter fun e => e.1 ≤ now + dt).length, ans j ≠ 0) →
        ∃ s' fired, s.update fuel dt ans = some (s', fired) ∧ fired.Perm (events.filter fun e => e.1 ≤ now + dt) ∧ fired.Pairwise (fun x y => x.1 ≤ y.1) ∧
          R s' (now + dt) ((events.filter fun e => now + dt < e.1) ++ again (now + dt) ans 0 fired)) := by
  refine ⟨fun s now events => s.now = now ∧ Spec.IsHeap dueCmp s.heap ∧ s.heap.Perm events, ⟨rfl, fun i x y _ hx => by simp at hx, List.Perm.refl _⟩, ?_⟩
  rintro ⟨now, h⟩ _ events ⟨rfl, hh, hp⟩
  refine ⟨fun t id => ?_, fun dt ans fuel hans hf hc => ?_⟩
  · obtain ⟨r, e, h1, h2⟩ := insert_spec dueCmp_ord hh (t + now, id)
    refine ⟨⟨now, r⟩, by simp only [Sched.add, e, Option.map_some], rfl, h1, h2.trans ?_⟩
    rw [Int.add_comm t]
    exact hp.cons _
  · have hpf := hp.filter fun e => decide (e.1 ≤ now + dt)
    have hle := List.length_filter_le (fun e : Int × Nat => decide (e.1 ≤ now + dt)) h
    have hlen : h.length = events.length := hp.length_eq
    obtain ⟨fired, a', g1, g2, g3, g4, g5⟩ := fire_spec (now + dt) ans hans _ fuel 0 h hh rfl (by omega) (by
      rcases hc with ⟨e, he, hlt⟩ | ⟨j, hj, hne⟩
      · exact .inl ⟨e, hp.mem_iff.2 he, hlt⟩
      · exact .inr ⟨j, by rw [hpf.length_eq]; exact hj, by simpa using hne⟩)
    exact ⟨⟨now + dt, a'⟩, fired, by simp only [Sched.update, g1, Option.map_some], g3.trans hpf, g4, rfl, g2,
      g5.trans ((hp.filter _).append_right _)⟩

/-- Three events, of which two are due after five units; the first asks to be repeated after four. -/
example : ((Sched.mk 0 []).add 5 0).bind (fun s => (s.add 3 1).bind fun s => (s.add 9 2).bind fun s => s.update 4 5 fun k => if k = 0 then 4 else 0) =
    some (⟨5, [(9, 1), (9, 2)]⟩, [(3, 1), (5, 0)]) ∧ ∃ e ∈ [(5, 0), (3, 1), ((9 : Int), 2)], 0 + 5 < e.1 := by
  refine ⟨by decide +kernel, (9, 2), by simp, by decide⟩

/-- When the last event is called and not repeated, `Update` looks at the top of an empty heap, whatever the fuel. -/
theorem C68_empty_counterexample (fuel : Nat) : ((Sched.mk 0 []).add 3 1).bind (fun s => s.update fuel 5 fun _ => 0) = none := by
  have e : (Sched.mk 0 []).add 3 1 = some ⟨0, [(3, 1)]⟩ := by decide +kernel
  rw [e, Option.bind_some]
  cases fuel with
  | zero => rfl
  | succ fuel =>
    cases fuel with
    | zero => rfl
    | succ fuel => rfl

end Verif.Heap
