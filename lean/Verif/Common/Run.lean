/-!
# Running a list of calls

Shared by the history properties: a step function that may fail (`none` is undefined behaviour), run over a list of
calls while collecting what each returns.
-/

namespace Verif

/-- Run a list of calls, collecting what they return. -/
def runAll {ω σ ρ : Type} (f : ω → σ → Option (σ × ρ)) : List ω → σ → Option (σ × List ρ)
  | [], s => some (s, [])
  | o :: os, s => (f o s).bind fun (s1, r) => (runAll f os s1).map fun (s2, rs) => (s2, r :: rs)

/-- The same for a step function that cannot fail. -/
def runSpec {ω σ ρ : Type} (f : ω → σ → σ × ρ) : List ω → σ → σ × List ρ
  | [], s => (s, [])
  | o :: os, s => ((runSpec f os (f o s).1).1, (f o s).2 :: (runSpec f os (f o s).1).2)

/-- Simulation: if every step of the implementation succeeds with the specified answer and keeps the relation, so does
every run. -/
theorem runSpec_sim {ω σ τ ρ : Type} {f : ω → σ → σ × ρ} {g : ω → τ → Option (τ × ρ)} {R : σ → τ → Prop}
    (hstep : ∀ o s t, R s t → ∃ t', g o t = some (t', (f o s).2) ∧ R (f o s).1 t') :
    ∀ (os : List ω) (s : σ) (t : τ), R s t →
      ∃ t', runAll g os t = some (t', (runSpec f os s).2) ∧ R (runSpec f os s).1 t' := by
  intro os
  induction os with
  | nil => intro s t h; exact ⟨t, rfl, h⟩
  | cons o os ih =>
    intro s t h
    obtain ⟨t1, e1, e2⟩ := hstep o s t h
    obtain ⟨t2, f1, f2⟩ := ih _ t1 e2
    exact ⟨t2, by simp [runAll, runSpec, e1, f1], f2⟩

/-- Simulation of a partial specification (it fails on calls that are not allowed). -/
theorem runAll_sim {ω σ τ ρ : Type} {f : ω → σ → Option (σ × ρ)} {g : ω → τ → Option (τ × ρ)} {R : σ → τ → Prop}
    (hstep : ∀ o s t s' r, R s t → f o s = some (s', r) → ∃ t', g o t = some (t', r) ∧ R s' t') :
    ∀ (os : List ω) (s : σ) (t : τ) (s' : σ) (rs : List ρ), R s t → runAll f os s = some (s', rs) →
      ∃ t', runAll g os t = some (t', rs) ∧ R s' t' := by
  intro os
  induction os with
  | nil =>
    intro s t s' rs hr h
    simp [runAll] at h
    obtain ⟨rfl, rfl⟩ := h
    exact ⟨t, rfl, hr⟩
  | cons o os ih =>
    intro s t s' rs hr h
    simp only [runAll, Option.bind_eq_some_iff] at h
    obtain ⟨⟨s1, r⟩, h1, h2⟩ := h
    simp only [Option.map_eq_some_iff] at h2
    obtain ⟨⟨s2, rs'⟩, h2, h3⟩ := h2
    simp at h3
    obtain ⟨rfl, rfl⟩ := h3
    obtain ⟨t1, e1, e2⟩ := hstep o s t s1 r hr h1
    obtain ⟨t2, f1, f2⟩ := ih s1 t1 s2 rs' e2 h2
    exact ⟨t2, by simp [runAll, e1, f1], f2⟩

/-- An invariant of every step is an invariant of every run. -/
theorem runAll_inv {ω σ ρ : Type} {g : ω → σ → Option (σ × ρ)} {P : σ → Prop}
    (hstep : ∀ o s s' r, P s → g o s = some (s', r) → P s') :
    ∀ (os : List ω) (s s' : σ) (rs : List ρ), P s → runAll g os s = some (s', rs) → P s' := by
  intro os
  induction os with
  | nil =>
    intro s s' rs hr h
    simp [runAll] at h
    obtain ⟨rfl, rfl⟩ := h
    exact hr
  | cons o os ih =>
    intro s s' rs hr h
    simp only [runAll, Option.bind_eq_some_iff] at h
    obtain ⟨⟨s1, r⟩, h1, h2⟩ := h
    simp only [Option.map_eq_some_iff] at h2
    obtain ⟨⟨s2, rs'⟩, h2, h3⟩ := h2
    simp at h3
    obtain ⟨rfl, rfl⟩ := h3
    exact ih s1 s2 rs' (hstep o s s1 r hr h1) h2

end Verif
