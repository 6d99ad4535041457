import Verif.Lemmas.Sort
import Verif.Spec.Trace

/-!
# What a single operation does
-/

set_option linter.unusedSectionVars false

namespace Cmaes
variable {n : Nat} {F R : Type} [Flt F]

/-- The part of a `CMAES` that never changes. -/
structure SameConfig (c c' : CMAES n F R) : Prop where
  parameters : c'.parameters = c.parameters
  constraints : c'.sampler.constraints = c.sampler.constraints
  maxResamples : c'.sampler.maxResamples = c.sampler.maxResamples
  populationSize : c'.sampler.populationSize = c.sampler.populationSize
  f : c'.sampler.obj.f = c.sampler.obj.f
  printGapEvals : c'.printGapEvals = c.printGapEvals
  timeCreated : c'.timeCreated = c.timeCreated

theorem SameConfig.refl (c : CMAES n F R) : SameConfig c c := ⟨rfl, rfl, rfl, rfl, rfl, rfl, rfl⟩
theorem SameConfig.trans {a b c : CMAES n F R} (h : SameConfig a b) (h' : SameConfig b c) :
    SameConfig a c :=
  ⟨h'.1.trans h.1, h'.2.trans h.2, h'.3.trans h.3, h'.4.trans h.4, h'.5.trans h.5, h'.6.trans h.6,
    h'.7.trans h.7⟩

/-- Everything but plot, output and clock. -/
structure SameSearch (c c' : CMAES n F R) : Prop where
  sampler : c'.sampler = c.sampler
  parameters : c'.parameters = c.parameters
  state : c'.state = c.state
  history : c'.history = c.history
  printGapEvals : c'.printGapEvals = c.printGapEvals
  timeCreated : c'.timeCreated = c.timeCreated
  steps : c'.world.steps = c.world.steps

theorem SameSearch.refl (c : CMAES n F R) : SameSearch c c := ⟨rfl, rfl, rfl, rfl, rfl, rfl, rfl⟩
theorem SameSearch.trans {a b c : CMAES n F R} (h : SameSearch a b) (h' : SameSearch b c) :
    SameSearch a c :=
  ⟨h'.1.trans h.1, h'.2.trans h.2, h'.3.trans h.3, h'.4.trans h.4, h'.5.trans h.5, h'.6.trans h.6,
    h'.7.trans h.7⟩
theorem SameSearch.config {c c' : CMAES n F R} (h : SameSearch c c') : SameConfig c c' :=
  ⟨h.parameters, by rw [h.sampler], by rw [h.sampler], by rw [h.sampler], by rw [h.sampler],
    h.printGapEvals, h.timeCreated⟩

theorem sameSearch_addPlotPoint (c : CMAES n F R) : SameSearch c c.addPlotPoint :=
  ⟨rfl, rfl, rfl, rfl, rfl, rfl, rfl⟩
theorem sameSearch_print (c : CMAES n F R) (e : PrintEvent n F) : SameSearch c (c.print e) :=
  ⟨rfl, rfl, rfl, rfl, rfl, rfl, rfl⟩
theorem sameSearch_printFinalInfo (c : CMAES n F R) (rs : List TerminationReason) :
    SameSearch c (c.printFinalInfo rs) := by
  unfold CMAES.printFinalInfo
  by_cases h : c.sampler.functionEvals ≠ c.lastPrintEvals
  · simp only [h, if_pos, ne_eq, not_false_eq_true]
    exact (sameSearch_print c _).trans (sameSearch_print _ _)
  · rw [if_neg h]
    exact sameSearch_print c _

theorem sameSearch_autoPlot {c c' : CMAES n F R} (h : c.autoPlot = .ok c') : SameSearch c c' := by
  unfold CMAES.autoPlot at h
  split at h
  · injection h with h; subst h; exact .refl _
  · split at h
    · injection h with h; subst h; exact sameSearch_addPlotPoint _
    · simp only [Outcome.bind_eq_ok] at h
      obtain ⟨a, _, h⟩ := h
      injection h with h
      subst h
      split
      · exact sameSearch_addPlotPoint _
      · exact .refl _

theorem sameSearch_autoPrint {c c' : CMAES n F R} (h : c.autoPrint = .ok c') :
    SameSearch c c' := by
  unfold CMAES.autoPrint at h
  split at h
  · injection h with h; subst h; exact .refl _
  · simp only [Outcome.bind_eq_ok] at h
    obtain ⟨a, _, h⟩ := h
    injection h with h
    subst h
    split
    · exact ⟨rfl, rfl, rfl, rfl, rfl, rfl, rfl⟩
    · split
      · exact sameSearch_print _ _
      · exact .refl _

/-- The input of the termination check made for `c`. -/
def checkInput (c : CMAES n F R) (elapsed : Nat) (inds : List (EvaluatedPoint n F)) :
    TerminationCheck n F :=
  { evals := c.sampler.functionEvals, elapsed, parameters := c.parameters, state := c.state
    history := c.history, individuals := inds }

/-- The time seen by the termination check. -/
def checkElapsed (env : Env n F R) (c : CMAES n F R) : Nat :=
  if c.parameters.termination.maxTime.isSome then env.clock c.world.clockReads - c.timeCreated
  else 0

theorem checkTermination_eq_ok {env : Env n F R} {inds : List (EvaluatedPoint n F)}
    {c c' : CMAES n F R} {r : Option (TerminationData n F)}
    (h : c.checkTermination env inds = .ok (c', r)) :
    SameSearch c c' ∧ c'.plot = c.plot ∧ c'.lastPrintEvals = c.lastPrintEvals ∧
      c'.world.out = c.world.out ∧
      c'.world.clockReads = c.world.clockReads +
        (if c.parameters.termination.maxTime.isSome then 1 else 0) ∧
      ∃ reasons, (checkInput c (checkElapsed env c) inds).check env.medianNaN = .ok reasons ∧
        r = if reasons.isEmpty then none else some (c'.terminationData reasons) := by
  unfold CMAES.checkTermination at h
  cases hm : c.parameters.termination.maxTime with
  | none =>
    simp only [hm, Option.isSome_none, Bool.false_eq_true, if_false, Outcome.bind_eq_ok,
      Outcome.ok.injEq, Prod.mk.injEq] at h
    obtain ⟨reasons, h1, h2, h3⟩ := h
    subst h2
    refine ⟨⟨rfl, rfl, rfl, rfl, rfl, rfl, rfl⟩, rfl, rfl, rfl, rfl, reasons, ?_, h3.symm⟩
    simpa [checkElapsed, hm, checkInput] using h1
  | some m =>
    simp only [hm, Option.isSome_some, if_true, Outcome.bind_eq_ok, World.now,
      Outcome.ok.injEq, Prod.mk.injEq] at h
    obtain ⟨reasons, h1, h2, h3⟩ := h
    subst h2
    refine ⟨⟨rfl, rfl, rfl, rfl, rfl, rfl, rfl⟩, rfl, rfl, rfl, rfl, reasons, ?_, h3.symm⟩
    simpa [checkElapsed, hm, checkInput] using h1

/-- `next` after a successful sampling with calls `calls` giving the generation `inds`. -/
structure NextCompleted (env : Env n F R) (kind : EvalKind) (c c' : CMAES n F R)
    (calls : List (Vec n F × F)) (ps inds : List (EvaluatedPoint n F))
    (r : Option (TerminationData n F)) : Prop where
  sampled : Sampled kind c.state.mean c.state.sigma c.parameters.mode c.sampler.populationSize
    calls ps inds
  evals : c'.sampler.functionEvals = c.sampler.functionEvals + c.sampler.populationSize
  history : c.history.update c.parameters.mode inds = .ok c'.history
  update : ∃ success, c.state.update env.eigen (env.redTree c.world.steps)
      c'.sampler.functionEvals c.parameters inds = .ok (c'.state, success) ∧
    (success = false → c'.plot = c.plot ∧ c'.lastPrintEvals = c.lastPrintEvals ∧
      c'.world.out = c.world.out ∧ c'.world.clockReads = c.world.clockReads ∧
      r = some (c'.terminationData [.posDefCov])) ∧
    (success = true → ∃ c1 c2,
      ({ c with sampler := c'.sampler, world := { c.world with steps := c.world.steps + 1 },
                history := c'.history, state := c'.state } : CMAES n F R).autoPlot = .ok c1 ∧
      c1.autoPrint = .ok c2 ∧ c2.checkTermination env inds = .ok (c', r))

/-- `next` after a sampling that met a NaN. -/
structure NextFailed (kind : EvalKind) (c c' : CMAES n F R) (calls : List (Vec n F × F))
    (r : Option (TerminationData n F)) : Prop where
  nan : ∃ e ∈ calls, Flt.isNaN e.2 = true
  len : calls.length ≤ c.sampler.populationSize
  evals : c'.sampler.functionEvals = c.sampler.functionEvals
  state : c'.state = c.state
  history : c'.history = c.history
  plot : c'.plot = c.plot
  lastPrintEvals : c'.lastPrintEvals = c.lastPrintEvals
  out : c'.world.out = c.world.out
  clockReads : c'.world.clockReads = c.world.clockReads
  result : r = some (c'.terminationData [.invalidFunctionValue])
  seq : kind = .seq → ∃ pre x v, calls = pre ++ [(x, v)] ∧ Flt.isNaN v = true ∧
            ∀ e ∈ pre, Flt.isNaN e.2 = false

/-- The steps drawn for the next generation of `c`. -/
def drawnSteps (env : Env n F R) (c : CMAES n F R) : Outcome (List (Vec n F) × R) :=
  resample env.rng c.state.cov.transform c.state.mean c.state.sigma c.sampler.constraints
    c.sampler.maxResamples c.sampler.populationSize env.resampleFuel 0 [] c.sampler.rng

variable [FltLaws F]

theorem next_cases {env : Env n F R} {kind : EvalKind} {c c' : CMAES n F R}
    {r : Option (TerminationData n F)} (h : c.next env kind = .ok (c', r)) :
    ∃ calls, SameConfig c c' ∧ c'.sampler.obj.log = c.sampler.obj.log ++ calls ∧
      c'.world.steps = c.world.steps + 1 ∧
      ∃ ys, drawnSteps env c = .ok (ys, c'.sampler.rng) ∧
      (NextFailed kind c c' calls r ∨
       ∃ ps inds, NextCompleted env kind c c' calls ps inds r ∧
        ps.map (fun p => p.unscaledStep) = ys) := by
  unfold CMAES.next at h
  simp only [Outcome.bind_eq_ok] at h
  obtain ⟨⟨res, s⟩, hs, h⟩ := h
  obtain ⟨ys, calls, hys, hlog, hs', hc⟩ := sample_cases hs
  refine ⟨calls, ?_⟩
  have hcon : s.constraints = c.sampler.constraints := by rw [hs']
  have hmax : s.maxResamples = c.sampler.maxResamples := by rw [hs']
  have hpop : s.populationSize = c.sampler.populationSize := by rw [hs']
  have hf : s.obj.f = c.sampler.obj.f := by rw [hs']
  rcases hc with ⟨hres, h1, h2, h3, h4⟩ | ⟨ps, inds, hres, h1, h2, h3⟩
  · subst hres
    simp only [Outcome.ok.injEq, Prod.mk.injEq] at h
    obtain ⟨hc', hr⟩ := h
    subst hc'
    exact ⟨⟨rfl, hcon, hmax, hpop, hf, rfl, rfl⟩, hlog, rfl, ys, hys,
      .inl ⟨h1, h2, h3, rfl, rfl, rfl, rfl, rfl, rfl, hr.symm, h4⟩⟩
  · subst hres
    simp only [Outcome.bind_eq_ok] at h
    obtain ⟨hist, hh, h⟩ := h
    unfold CMAES.nextInternal at h
    simp only [Outcome.bind_eq_ok] at h
    obtain ⟨⟨st, success⟩, hu, h⟩ := h
    cases success with
    | false =>
      simp only [Bool.false_eq_true, if_false, Outcome.ok.injEq, Prod.mk.injEq] at h
      obtain ⟨hc', hr⟩ := h
      subst hc'
      exact ⟨⟨rfl, hcon, hmax, hpop, hf, rfl, rfl⟩, hlog, rfl, ys, hys, .inr ⟨ps, inds,
        ⟨h1, h3, hh, false, hu, fun _ => ⟨rfl, rfl, rfl, rfl, hr.symm⟩, by simp⟩, h2⟩⟩
    | true =>
      simp only [if_true, Outcome.bind_eq_ok] at h
      obtain ⟨c1, hc1, c2, hc2, h⟩ := h
      have s1 := sameSearch_autoPlot hc1
      have s2 := sameSearch_autoPrint hc2
      have s3 := (checkTermination_eq_ok h).1
      have ss := (s1.trans s2).trans s3
      have e1 : c'.sampler = s := ss.sampler
      have e2 : c'.state = st := ss.state
      have e3 : c'.history = hist := ss.history
      have e4 : c'.parameters = c.parameters := ss.parameters
      have e5 : c'.printGapEvals = c.printGapEvals := ss.printGapEvals
      have e6 : c'.timeCreated = c.timeCreated := ss.timeCreated
      have e7 : c'.world.steps = c.world.steps + 1 := ss.steps
      refine ⟨⟨e4, by rw [e1, hcon], by rw [e1, hmax], by rw [e1, hpop], by rw [e1, hf], e5, e6⟩,
        by rw [e1, hlog], e7, ys, by rw [e1]; exact hys, .inr ⟨ps, inds,
        ⟨h1, by rw [e1, h3], by rw [e3, hh], true, by rw [e1, e2]; exact hu, by simp, fun _ => ?_⟩, h2⟩⟩
      rw [e1, e2, e3]
      exact ⟨c1, c2, hc1, hc2, h⟩

/-- A quiet operation leaves the search alone. -/
theorem quiet_sameSearch {env : Env n F R} {op : Op} {c c' : CMAES n F R}
    {r : Option (TerminationData n F)} (hq : op.Quiet) (h : c.apply env op = .ok (c', r)) :
    SameSearch c c' ∧ r = none := by
  cases op with
  | next _ => exact hq.elim
  | run _ => exact hq.elim
  | addPlotPoint =>
    simp only [CMAES.apply, Outcome.ok.injEq, Prod.mk.injEq] at h
    obtain ⟨rfl, rfl⟩ := h
    exact ⟨sameSearch_addPlotPoint c, rfl⟩
  | clearPlot =>
    simp only [CMAES.apply, CMAES.clearPlot, Outcome.bind_eq_ok, Outcome.ok.injEq,
      Prod.mk.injEq] at h
    obtain ⟨c1, h1, rfl, rfl⟩ := h
    refine ⟨?_, rfl⟩
    split at h1
    · injection h1 with h1; subst h1; exact .refl _
    · simp only [Outcome.bind_eq_ok, Outcome.ok.injEq] at h1
      obtain ⟨p, _, rfl⟩ := h1
      exact ⟨rfl, rfl, rfl, rfl, rfl, rfl, rfl⟩
  | printInitialInfo =>
    simp only [CMAES.apply, Outcome.ok.injEq, Prod.mk.injEq] at h
    obtain ⟨rfl, rfl⟩ := h
    exact ⟨sameSearch_print c _, rfl⟩
  | printInfo =>
    simp only [CMAES.apply, Outcome.ok.injEq, Prod.mk.injEq] at h
    obtain ⟨rfl, rfl⟩ := h
    exact ⟨sameSearch_print c _, rfl⟩
  | printRunInfo k =>
    simp only [CMAES.apply, Outcome.ok.injEq, Prod.mk.injEq] at h
    obtain ⟨rfl, rfl⟩ := h
    exact ⟨sameSearch_print c _, rfl⟩
  | printFinalInfo rs =>
    simp only [CMAES.apply, Outcome.ok.injEq, Prod.mk.injEq] at h
    obtain ⟨rfl, rfl⟩ := h
    exact ⟨sameSearch_printFinalInfo c _, rfl⟩

end Cmaes
