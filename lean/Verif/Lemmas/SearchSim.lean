import Verif.Lemmas.Simulation
import Verif.Lemmas.Exec

/-!
# Two runs with the same ranking of values
-/

set_option linter.unusedSectionVars false

namespace Cmaes
variable {n : Nat} {F R : Type} [Flt F]

/-- What `next` does to sampler and state. -/
theorem next_core {env : Env n F R} {kind : EvalKind} {c d : CMAES n F R}
    {r : Option (TerminationData n F)} (h : c.next env kind = .ok (d, r)) :
    ∃ res, c.sampler.sample env kind (env.sched c.world.steps) c.state.cov.transform c.state.mean
        c.state.sigma c.parameters.mode = .ok (res, d.sampler) ∧
      d.parameters = c.parameters ∧ d.world.steps = c.world.steps + 1 ∧
      d.printGapEvals = c.printGapEvals ∧ d.timeCreated = c.timeCreated ∧
      ((res = none ∧ d.state = c.state ∧ d.history = c.history ∧
          d.world.clockReads = c.world.clockReads ∧
          r = some (d.terminationData [.invalidFunctionValue])) ∨
        ∃ inds success, res = some inds ∧ c.history.update c.parameters.mode inds = .ok d.history ∧
          c.state.update env.eigen (env.redTree c.world.steps) d.sampler.functionEvals
            c.parameters inds = .ok (d.state, success) ∧
          (success = false → r = some (d.terminationData [.posDefCov]) ∧
            d.world.clockReads = c.world.clockReads) ∧
          (success = true →
            d.world.clockReads = c.world.clockReads +
              (if c.parameters.termination.maxTime.isSome then 1 else 0) ∧
            ∃ reasons, (checkInput d (if c.parameters.termination.maxTime.isSome then
                env.clock c.world.clockReads - c.timeCreated else 0) inds).check env.medianNaN =
                .ok reasons ∧
              r = if reasons.isEmpty then none else some (d.terminationData reasons))) := by
  unfold CMAES.next at h
  simp only [Outcome.bind_eq_ok] at h
  obtain ⟨⟨res, s⟩, hs, h⟩ := h
  cases res with
  | none =>
    simp only [Outcome.ok.injEq, Prod.mk.injEq] at h
    obtain ⟨rfl, rfl⟩ := h
    exact ⟨none, hs, rfl, rfl, rfl, rfl, .inl ⟨rfl, rfl, rfl, rfl, rfl⟩⟩
  | some inds =>
    simp only [Outcome.bind_eq_ok] at h
    obtain ⟨hist, hh, h⟩ := h
    unfold CMAES.nextInternal at h
    simp only [Outcome.bind_eq_ok] at h
    obtain ⟨⟨st, success⟩, hu, h⟩ := h
    cases success with
    | false =>
      simp only [Bool.false_eq_true, if_false, Outcome.ok.injEq, Prod.mk.injEq] at h
      obtain ⟨rfl, rfl⟩ := h
      exact ⟨some inds, hs, rfl, rfl, rfl, rfl, .inr ⟨inds, false, rfl, hh, hu,
        fun _ => ⟨rfl, rfl⟩, by simp⟩⟩
    | true =>
      simp only [if_true, Outcome.bind_eq_ok] at h
      obtain ⟨c1, hc1, c2, hc2, h⟩ := h
      have s1 := sameSearch_autoPlot hc1
      have s2 := sameSearch_autoPrint hc2
      obtain ⟨s3, h1, h2, h3, h4, reasons, h5, h6⟩ := checkTermination_eq_ok h
      have s12 := s1.trans s2
      have ss := s12.trans s3
      have e1 : d.sampler = s := ss.sampler
      have e2 : d.state = st := ss.state
      have e3 : d.history = hist := ss.history
      have ep : c2.parameters = c.parameters := s12.parameters
      have et : c2.timeCreated = c.timeCreated := s12.timeCreated
      have hcr : ∀ {a b : CMAES n F R}, a.autoPlot = .ok b →
          b.world.clockReads = a.world.clockReads := by
        intro a b h
        unfold CMAES.autoPlot at h
        split at h
        · injection h with h; subst h; rfl
        · split at h
          · injection h with h; subst h; rfl
          · simp only [Outcome.bind_eq_ok] at h
            obtain ⟨x, _, h⟩ := h
            injection h with h
            subst h
            split <;> rfl
      have hcr' : ∀ {a b : CMAES n F R}, a.autoPrint = .ok b →
          b.world.clockReads = a.world.clockReads := by
        intro a b h
        unfold CMAES.autoPrint at h
        split at h
        · injection h with h; subst h; rfl
        · simp only [Outcome.bind_eq_ok] at h
          obtain ⟨x, _, h⟩ := h
          injection h with h
          subst h
          split
          · rfl
          · split <;> rfl
      have ec : c2.world.clockReads = c.world.clockReads := by rw [hcr' hc2, hcr hc1]
      refine ⟨some inds, by rw [e1]; exact hs, ss.parameters, ss.steps, ss.printGapEvals,
        ss.timeCreated, .inr ⟨inds, true, rfl, by rw [e3]; exact hh,
        by rw [e1, e2]; exact hu, by simp, fun _ => ⟨by rw [h4, ec, ep], reasons, ?_, h6⟩⟩⟩
      have hci : checkInput c2 (checkElapsed env c2) inds = checkInput d
          (if c.parameters.termination.maxTime.isSome then
            env.clock c.world.clockReads - c.timeCreated else 0) inds := by
        unfold checkInput checkElapsed
        rw [s3.sampler, s3.parameters, s3.state, s3.history, ep, ec, et]
      rw [← hci]; exact h5

/-- `c'` is in the same search state as `c`, with transformed values. -/
structure SearchSim (φ : F → F) (c c' : CMAES n F R) : Prop where
  sampler : SamplerSim φ c.sampler c'.sampler
  state : c'.state = c.state
  parameters : ∃ m tp sd, c'.parameters =
    { c.parameters with mode := m, termination := tp, seed := sd }
  steps : c'.world.steps = c.world.steps

/-- Environments that agree in everything that matters for the search. -/
structure SameEnv (env env' : Env n F R) : Prop where
  rng : env'.rng = env.rng
  eigen : env'.eigen = env.eigen
  sched : env'.sched = env.sched
  redTree : env'.redTree = env.redTree
  fuel : env'.resampleFuel = env.resampleFuel

theorem SameEnv.refl (env : Env n F R) : SameEnv env env := ⟨rfl, rfl, rfl, rfl, rfl⟩

theorem map_step_mapPt (φ : F → F) (l : List (EvaluatedPoint n F)) :
    (l.map (mapPt φ)).map (fun p => p.unscaledStep) = l.map fun p => p.unscaledStep := by
  simp [List.map_map, Function.comp_def]

variable [FltLaws F] {φ : F → F}

theorem next_searchSim {env env' : Env n F R} (he : SameEnv env env') {kind : EvalKind}
    {c d c' d' : CMAES n F R} {r r' : Option (TerminationData n F)} (hs : SearchSim φ c c')
    (hφ : KeySim c.sampler.obj.f φ c.parameters.mode c'.parameters.mode) (h : c.next env kind = .ok (d, r))
    (h' : c'.next env' kind = .ok (d', r')) : SearchSim φ d d' := by
  obtain ⟨res, h1, h2, h3, _, _, h4⟩ := next_core h
  obtain ⟨res', h1', h2', h3', _, _, h4'⟩ := next_core h'
  have hrel := sample_sim (env := env) (env' := env') he.rng he.fuel (kind := kind)
    (sched := env.sched c.world.steps) (T := c.state.cov.transform) (mean := c.state.mean)
    (sigma := c.state.sigma) hφ hs.sampler
  rw [hs.state, hs.steps, he.sched] at h1'
  rw [h1, h1'] at hrel
  obtain ⟨hres, hsam⟩ := hrel.ok_ok
  simp only at hres hsam
  have hpar : ∃ m tp sd, d'.parameters =
      { d.parameters with mode := m, termination := tp, seed := sd } := by
    rw [h2, h2']; exact hs.parameters
  refine ⟨hsam, ?_, hpar, by rw [h3, h3', hs.steps]⟩
  rcases h4 with ⟨rfl, hst, _⟩ | ⟨inds, b, rfl, _, hu, _⟩
  · rcases h4' with ⟨_, hst', _⟩ | ⟨inds', _, rfl, _⟩
    · rw [hst, hst', hs.state]
    · simp at hres
  · rcases h4' with ⟨rfl, _⟩ | ⟨inds', b', rfl, _, hu', _⟩
    · simp at hres
    · simp only [Option.map_some, Option.some.injEq] at hres
      subst hres
      rw [hs.state, hs.steps, he.eigen, he.redTree, hsam.functionEvals,
        update_congr (map_step_mapPt φ inds) hs.parameters, hu] at hu'
      simp only [Outcome.ok.injEq, Prod.mk.injEq] at hu'
      exact hu'.1.symm

theorem SearchSim.of_sameSearch {c c' d d' : CMAES n F R} (h : SearchSim φ c c')
    (s : SameSearch c d) (s' : SameSearch c' d') : SearchSim φ d d' :=
  ⟨by rw [s.sampler, s'.sampler]; exact h.sampler, by rw [s.state, s'.state, h.state],
    by rw [s.parameters, s'.parameters]; exact h.parameters, by rw [s.steps, s'.steps, h.steps]⟩

theorem mapCalls_append (φ : F → F) (a b : List (Vec n F × F)) :
    mapCalls φ (a ++ b) = mapCalls φ a ++ mapCalls φ b := by simp [mapCalls]

/-- The calls made by the two runs in one step. -/
theorem SearchSim.calls {c c' d d' : CMAES n F R} (h : SearchSim φ c c') (h' : SearchSim φ d d')
    {calls calls' : List (Vec n F × F)} (hl : d.sampler.obj.log = c.sampler.obj.log ++ calls)
    (hl' : d'.sampler.obj.log = c'.sampler.obj.log ++ calls') : calls' = mapCalls φ calls := by
  rw [h'.sampler.obj.log, hl, h.sampler.obj.log, mapCalls_append] at hl'
  exact (List.append_cancel_left hl').symm

end Cmaes
