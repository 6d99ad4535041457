import Verif.Lemmas.Check
import Verif.Props.Counting

/-!
# Runs as sequences of `next` calls
-/

set_option linter.unusedSectionVars false

namespace Cmaes
variable {n : Nat} {F R : Type} [Flt F] [FltLaws F]
variable {env : Env n F R} {obj : Obj n F} {o : Options n F} {t u : List (NextCall n F)}
  {c c' c1 : CMAES n F R} {kind : EvalKind}

/-- The `next` calls of a run before the last one: they returned `None`. -/
def Unfinished (kind : EvalKind) (t : List (NextCall n F)) : Prop :=
  ∀ s ∈ t, s.result = none ∧ s.kind = kind

/-- All the ways the loop of `run` can end. -/
theorem runLoop_cases (fuel : Nat) (c : CMAES n F R) :
    (∃ c' d t s, c.runLoop env kind fuel = .ok (c', d) ∧ Exec env c (t ++ [s]) c' ∧
      s.kind = kind ∧ s.result = some d ∧ Unfinished kind t ∧ t.length < fuel) ∨
    (∃ t c1, Exec env c t c1 ∧ Unfinished kind t ∧
      ((c.runLoop env kind fuel = .diverge ∧ (c1.next env kind = .diverge ∨ t.length = fuel)) ∨
       ∃ p, c.runLoop env kind fuel = .panic p ∧ c1.next env kind = .panic p)) := by
  induction fuel generalizing c with
  | zero =>
    exact .inr ⟨[], c, .refl c, by simp [Unfinished], .inl ⟨rfl, .inr rfl⟩⟩
  | succ fuel ih =>
    simp only [CMAES.runLoop]
    cases hn : c.next env kind with
    | diverge =>
      exact .inr ⟨[], c, .refl c, by simp [Unfinished], .inl ⟨rfl, .inl hn⟩⟩
    | panic p =>
      exact .inr ⟨[], c, .refl c, by simp [Unfinished], .inr ⟨p, rfl, hn⟩⟩
    | ok x =>
      obtain ⟨c1, r⟩ := x
      obtain ⟨calls, hl⟩ := next_log hn
      have h1 := Exec.next (Exec.refl (env := env) c) hn hl
      cases r with
      | some d =>
        exact .inl ⟨c1, d, [], _, rfl, h1, rfl, rfl, by simp [Unfinished], by simp⟩
      | none =>
        have hcons : ∀ {t : List (NextCall n F)}, Unfinished kind t →
            Unfinished kind ({ kind, calls, result := none } :: t) := by
          intro t ht s hs
          rcases List.mem_cons.mp hs with rfl | hs
          · exact ⟨rfl, rfl⟩
          · exact ht s hs
        rcases ih c1 with ⟨c', d, t, s, h2, h3, h4, h5, h6, h7⟩ | ⟨t, c2, h2, h3, h4⟩
        · refine .inl ⟨c', d, { kind, calls, result := none } :: t, s, h2, ?_, h4, h5, hcons h6,
            by simpa using h7⟩
          simpa using h1.trans h3
        · refine .inr ⟨{ kind, calls, result := none } :: t, c2, by simpa using h1.trans h2,
            hcons h3, ?_⟩
          rcases h4 with ⟨h4, h5⟩ | h4
          · exact .inl ⟨h4, by simpa using h5⟩
          · exact .inr h4

/-- A successful run. -/
theorem run_ok {d : TerminationData n F} (h : c.run env kind = .ok (c', d)) :
    ∃ t s, Exec env c (t ++ [s]) c' ∧ s.kind = kind ∧ s.result = some d ∧ Unfinished kind t := by
  simp only [CMAES.run, Outcome.bind_eq_ok, Outcome.ok.injEq, Prod.mk.injEq] at h
  obtain ⟨⟨c1, d1⟩, h1, h2, h3⟩ := h
  rcases runLoop_cases (env := env) (kind := kind) env.runFuel c with
    ⟨c2, d2, t, s, h4, h5, h6, h7, h8, _⟩ | ⟨_, _, _, _, ⟨h4, _⟩ | ⟨_, h4, _⟩⟩
  · rw [h4] at h1
    simp only [Outcome.ok.injEq, Prod.mk.injEq] at h1
    obtain ⟨rfl, rfl⟩ := h1
    simp only at h2 h3
    subst h2 h3
    exact ⟨t, s, by simpa using h5.trans (runInternal_exec _ _), h6, h7, h8⟩
  · rw [h4] at h1; simp at h1
  · rw [h4] at h1; simp at h1

/-- A run that does not end. -/
theorem run_diverge (h : c.run env kind = .diverge) :
    ∃ t c1, Exec env c t c1 ∧ Unfinished kind t ∧
      (c1.next env kind = .diverge ∨ t.length = env.runFuel) := by
  rcases runLoop_cases (env := env) (kind := kind) env.runFuel c with
    ⟨c2, d2, t, s, h4, _⟩ | ⟨t, c1, h1, h2, ⟨h4, h5⟩ | ⟨_, h4, _⟩⟩
  · simp only [CMAES.run, h4, Outcome.ok_bind] at h
    exact absurd h (by simp)
  · exact ⟨t, c1, h1, h2, h5⟩
  · simp only [CMAES.run, h4] at h
    exact absurd h (by simp)

/-- A run that panics. -/
theorem run_panic {p : Panic} (h : c.run env kind = .panic p) :
    ∃ t c1, Exec env c t c1 ∧ Unfinished kind t ∧ c1.next env kind = .panic p := by
  rcases runLoop_cases (env := env) (kind := kind) env.runFuel c with
    ⟨c2, d2, t, s, h4, _⟩ | ⟨t, c1, h1, h2, ⟨h4, h5⟩ | ⟨q, h4, h5⟩⟩
  · simp only [CMAES.run, h4, Outcome.ok_bind] at h
    exact absurd h (by simp)
  · simp only [CMAES.run, h4] at h
    exact absurd h (by simp)
  · simp only [CMAES.run, h4] at h
    have h' : Outcome.panic q = (Outcome.panic p : Outcome (CMAES n F R × TerminationData n F)) := h
    injection h' with h'
    subst h'
    exact ⟨t, c1, h1, h2, h5⟩

theorem checked_of_none {s : NextCall n F} (h : s.result = none) : s.Checked :=
  ⟨by rintro ⟨d, hd, _⟩; simp [h] at hd, by rintro ⟨d, hd, _⟩; simp [h] at hd⟩

theorem History.Of.trans (h : History.Of env obj o t c) (h' : Exec env c u c1) :
    History.Of env obj o (t ++ u) c1 := by
  obtain ⟨w, c0, h0, he⟩ := h
  exact ⟨w, c0, h0, he.trans h'⟩

/-- The counters after `next` calls that returned `None`. -/
theorem unfinished_counters (h : History.Of env obj o t c) (he : Exec env c u c1)
    (hu : Unfinished kind u) :
    c1.generation = c.generation + u.length ∧
      c1.functionEvals = c.functionEvals + o.populationSize * u.length := by
  obtain ⟨a1, a2, _⟩ := c06_generations h
  obtain ⟨b1, b2, _⟩ := c06_generations (h.trans he)
  have e1 : (u.filter fun s => ¬ s.Failed) = u := by
    rw [List.filter_eq_self]
    intro s hs
    simpa using (checked_of_none (hu s hs).1).1
  have e2 : (u.filter fun s => s.ReportsPosDef) = [] := by
    rw [List.filter_eq_nil_iff]
    intro s hs
    simpa using (checked_of_none (hu s hs).1).2
  rw [List.filter_append, e1, List.length_append] at b1
  rw [List.filter_append, List.filter_append, e1, e2, List.append_nil, List.length_append] at b2
  constructor
  · omega
  · rw [b1, a1, Nat.mul_add]

/-- A call that got as far as the termination check. -/
theorem checked_of_check {m : List F → Outcome F} {tc : TerminationCheck n F}
    {reasons : List TerminationReason} (hch : tc.check m = .ok reasons) {s : NextCall n F}
    (hr : s.result = if reasons.isEmpty then none else some (c.terminationData reasons)) :
    s.Checked := by
  have hno : ∀ r : TerminationReason, r ∈ reasons → r ∈ checkOrder :=
    fun r hm => (check_sublist hch).mem hm
  constructor
  · rintro ⟨d, hd, hm⟩
    rw [hr] at hd
    split at hd
    · simp at hd
    · injection hd with hd
      subst hd
      have := hno _ hm
      simp [checkOrder] at this
  · rintro ⟨d, hd, hm⟩
    rw [hr] at hd
    split at hd
    · simp at hd
    · injection hd with hd
      subst hd
      have := hno _ hm
      simp [checkOrder] at this

/-- The reasons of a call in an execution. -/
theorem reasons_cases {s : NextCall n F} (h : History.Of env obj o (t ++ [s]) c) :
    s.Checked ∨ s.reasons = [.invalidFunctionValue] ∨ s.reasons = [.posDefCov] := by
  obtain ⟨w, c0, h0, he⟩ := h
  obtain ⟨c1, c2, h1, h2, h3, h4⟩ := he.last_next
  obtain ⟨calls, _, _, _, ys, _, hcase⟩ := next_cases h2
  by_cases hc : s.Checked
  · exact .inl hc
  right
  rcases hcase with hf | ⟨ps, inds, hcomp, _⟩
  · left
    unfold NextCall.reasons
    rw [hf.result]; rfl
  · rcases hcomp.result with hr | ⟨c3, reasons, _, hch, hr⟩
    · right
      unfold NextCall.reasons
      rw [hr]; rfl
    · exact absurd (checked_of_check hch hr) hc

/-- A reported reason other than the two failures comes from a complete check. -/
theorem checked_of_reason {s : NextCall n F} {r : TerminationReason}
    (h : History.Of env obj o (t ++ [s]) c) (hr : r ∈ s.reasons)
    (h1 : r ≠ .invalidFunctionValue) (h2 : r ≠ .posDefCov) : s.Checked := by
  rcases reasons_cases h with h | h | h
  · exact h
  · rw [h] at hr; simp at hr; exact absurd hr h1
  · rw [h] at hr; simp at hr; exact absurd hr h2

end Cmaes
