import Verif.Props.Best

/-!
# C05 - C06: evaluation and generation counters
-/

set_option linter.unusedSectionVars false

namespace Cmaes
variable {n : Nat} {F R : Type} [Flt F] [FltLaws F]
variable {env : Env n F R} {obj : Obj n F} {o : Options n F} {t : List (NextCall n F)}
  {c : CMAES n F R}

theorem FreshInv.completedCalls_length {gs : List (Gen n F)} (i : FreshInv env obj o t c gs) :
    (Cmaes.completedCalls t).length = o.populationSize * gs.length := by
  rw [i.completedCalls, List.length_flatMap]
  have : (gs.map fun g => g.call.calls.length) = List.replicate gs.length o.populationSize := by
    rw [List.eq_replicate_iff]
    refine ⟨by simp, ?_⟩
    intro k hk
    obtain ⟨g, hg, rfl⟩ := List.mem_map.mp hk
    exact (i.sampled g hg).callsLength
  rw [this]
  simp [Nat.mul_comm]

theorem allCalls_split (t : List (NextCall n F)) :
    (allCalls t).length = (completedCalls t).length +
      ((t.filter fun s => s.Failed).flatMap fun s => s.calls).length := by
  induction t with
  | nil => rfl
  | cons s t ih =>
    simp only [allCalls, completedCalls, List.flatMap_cons, List.length_append] at ih ⊢
    by_cases h : s.Failed
    · simp only [h, decide_true, List.filter_cons_of_pos, not_true_eq_false, decide_false,
        Bool.false_eq_true, not_false_eq_true, List.filter_cons_of_neg, List.flatMap_cons,
        List.length_append]
      omega
    · simp only [h, decide_true, List.filter_cons_of_pos, decide_false,
        Bool.false_eq_true, not_false_eq_true, List.filter_cons_of_neg, List.flatMap_cons,
        List.length_append]
      omega

/-- **C05, what is counted.** `function_evals()` is the number of objective calls made by the
`next` calls that did not report `InvalidFunctionValue`. -/
theorem c05_counts_completed (h : History.Of env obj o t c) :
    c.functionEvals = (completedCalls t).length := by
  obtain ⟨gs, i, _⟩ := fresh_inv h
  rw [i.completedCalls_length]
  exact i.evals

/-- **C05, when it is right.** `function_evals()` is the number of all calls to the objective
function if and only if none of these calls returned NaN. -/
theorem c05_function_evals_partial (h : History.Of env obj o t c) :
    c.functionEvals = (allCalls t).length ↔ ∀ e ∈ allCalls t, Flt.isNaN e.2 = false := by
  rw [c05_counts_completed h, allCalls_split]
  obtain ⟨gs, i, _⟩ := fresh_inv h
  constructor
  · intro hl e he
    obtain ⟨s, hs, hes⟩ := List.mem_flatMap.mp he
    by_cases hf : s.Failed
    · have h0 : ((t.filter fun s => s.Failed).flatMap fun s => s.calls).length = 0 := by omega
      rw [List.length_eq_zero_iff] at h0
      have : e ∈ (t.filter fun s => s.Failed).flatMap fun s => s.calls :=
        List.mem_flatMap.mpr ⟨s, List.mem_filter.mpr ⟨hs, by simpa using hf⟩, hes⟩
      rw [h0] at this
      simp at this
    · apply i.call_noNaN
      exact List.mem_flatMap.mpr ⟨s, List.mem_filter.mpr ⟨hs, by simpa using hf⟩, hes⟩
  · intro hn
    have : (t.filter fun s => s.Failed) = [] := by
      rw [List.filter_eq_nil_iff]
      intro s hs hf
      obtain ⟨⟨e, he, hnan⟩, _⟩ := i.failed s hs (by simpa using hf)
      rw [hn e (List.mem_flatMap.mpr ⟨s, hs, he⟩)] at hnan
      simp at hnan
    simp [this]

/-- `function_evals()` never exceeds the number of calls made. -/
theorem c05_le (h : History.Of env obj o t c) : c.functionEvals ≤ (allCalls t).length := by
  rw [c05_counts_completed h, allCalls_split]
  omega

/-- **C06.** `function_evals()` is `lambda` times the number of completed samplings; every completed
sampling that did not report `PosDefCov` counts as a generation. -/
theorem c06_generations (h : History.Of env obj o t c) :
    c.functionEvals = o.populationSize * (t.filter fun s => ¬ s.Failed).length ∧
    c.generation + (t.filter fun s => s.ReportsPosDef).length =
      (t.filter fun s => ¬ s.Failed).length ∧
    (∀ s ∈ t, ¬ s.Failed → s.calls.length = o.populationSize) := by
  obtain ⟨gs, i, hg⟩ := fresh_inv h
  have hl : (t.filter fun s => ¬ s.Failed).length = gs.length := by
    rw [← i.calls, List.length_map]
  refine ⟨by rw [hl]; exact i.evals, ?_, ?_⟩
  · rw [hl, ← hg]
    show c.state.generation + _ = _
    congr 1
    have h1 : (t.filter fun s => s.ReportsPosDef) =
        (t.filter fun s => ¬ s.Failed).filter fun s => s.ReportsPosDef := by
      rw [List.filter_filter]
      apply List.filter_congr
      intro s hs
      by_cases hf : s.Failed
      · obtain ⟨_, d, hd, hr⟩ := i.failed s hs hf
        have : ¬ s.ReportsPosDef := by
          rintro ⟨d', hd', hm⟩
          rw [hd] at hd'
          have := Option.some.inj hd'
          subst this
          rw [hr] at hm
          simp at hm
        simp [this]
      · simp [hf]
    rw [h1, ← i.calls, List.filter_map, List.length_map]
    rfl
  · intro s hs hf
    have : s ∈ t.filter fun s => ¬ s.Failed := List.mem_filter.mpr ⟨hs, by simpa using hf⟩
    rw [← i.calls] at this
    obtain ⟨g, hg, rfl⟩ := List.mem_map.mp this
    exact (i.sampled g hg).callsLength

/-- **C06, product.** As long as `PosDefCov` was never reported,
`function_evals() = population_size * generation()`. -/
theorem c06_product (h : History.Of env obj o t c) (hp : ∀ s ∈ t, ¬ s.ReportsPosDef) :
    c.functionEvals = o.populationSize * c.generation := by
  obtain ⟨h1, h2, _⟩ := c06_generations h
  have : (t.filter fun s => s.ReportsPosDef) = [] := by
    rw [List.filter_eq_nil_iff]
    intro s hs
    simpa using hp s hs
  rw [this] at h2
  rw [h1, ← h2]
  simp

section
open Witness
set_option maxRecDepth 100000

/-- **C05 is violated** once the objective has returned NaN: here six calls were made, but only the
four of the first generation are counted. -/
theorem c05_violated : ∃ t c, History.Of (wenv 2) nanAtSix opts t c ∧
    (decide (c.functionEvals = 4) && decide ((allCalls t).length = 6)) = true :=
  exists_history [.seq, .seq] _ opts_valid (by decide +kernel)

/-- The hypotheses of `c06_product` are met by a run of two generations. -/
example : ∃ t c, History.Of (wenv 2) sphere opts t c ∧
    ((t.all fun s => decide (¬ s.ReportsPosDef)) && decide (c.functionEvals = 8)
      && decide (c.generation = 2)) = true :=
  exists_history [.seq, .par] _ opts_valid (by decide +kernel)

/-- A run with two `PosDefCov` reports: twelve evaluations but one generation. -/
example : ∃ t c, History.Of noEigen sphere opts t c ∧
    (decide (t.map (fun s => decide s.ReportsPosDef) = [false, true, true])
      && decide (c.functionEvals = 12) && decide (c.generation = 1)) = true :=
  exists_history [.seq, .par, .seq] _ opts_valid (by decide +kernel)
end

end Cmaes
