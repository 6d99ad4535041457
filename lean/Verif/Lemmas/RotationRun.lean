import Verif.Lemmas.RotationStep
import Verif.Props.Invariance

/-!
# Two runs, one in a turned search space
-/

set_option linter.unusedSectionVars false

namespace Cmaes
variable {n : Nat} {R : Type} {Q : Matrix (Fin n) (Fin n) ℝ}
open Matrix

/-- `c'` is the optimizer `c` in the turned search space. -/
structure RunTurn {R' : Type} (Q : Matrix (Fin n) (Fin n) ℝ)
    (eigen : Mat n XR → Option (Mat n XR × Vec n XR)) (c : CMAES n XR R) (c' : CMAES n XR R') :
    Prop where
  sampler : SamplerTurn Q c.sampler c'.sampler
  parameters : c'.parameters = c.parameters
  history : c'.history = c.history.moved (turn Q)
  state : ∃ r r', StateTurn Q eigen c.state c'.state r r'
  timeCreated : c'.timeCreated = c.timeCreated
  steps : c'.world.steps = c.world.steps
  clockReads : c'.world.clockReads = c.world.clockReads
  plot : c'.plot = none
  printGapEvals : c'.printGapEvals = none

theorem StateTurn.mean_turn {eigen : Mat n XR → Option (Mat n XR × Vec n XR)} {s s' : State n XR}
    {r r' : RealState n} (h : StateTurn Q eigen s s' r r') : s'.mean = turn Q s.mean := by
  rw [h.rep.mean, h.rep'.mean, turn_fin, h.rot.mean]

theorem StateTurn.sigma_eq {eigen : Mat n XR → Option (Mat n XR × Vec n XR)} {s s' : State n XR}
    {r r' : RealState n} (h : StateTurn Q eigen s s' r r') : s'.sigma = s.sigma := by
  rw [h.rep.sigma, h.rep'.sigma, h.rot.sigma]

theorem RunTurn.turnedRun {R' : Type} {eigen : Mat n XR → Option (Mat n XR × Vec n XR)}
    {c : CMAES n XR R} {c' : CMAES n XR R'} (hQ : Qᵀ * Q = 1) (hn : n ≠ 0)
    (h : RunTurn Q eigen c c') : TurnedRun Q c c' := by
  obtain ⟨r, r', hs⟩ := h.state
  refine ⟨hs.mean_turn, hs.sigma_eq, ⟨r.C, hs.rep.cov, ?_⟩,
    axisRatio_exact hn hs.rep hs.rep' hs.good hs.good' (d_range hQ hs.rot hs.good hs.good'),
    hs.generation, h.sampler.functionEvals, ?_, ?_⟩
  · rw [← hs.rot.C]; exact hs.rep'.cov
  · show c'.history.currentBest = _
    rw [h.history]; rfl
  · show c'.history.overallBest = _
    rw [h.history]; rfl

variable {env : Env n XR R} {obj : Obj n XR} {o : Options n XR} {t : List (NextCall n XR)}
  {c d : CMAES n XR R}

theorem vector_draw (rng : RngOps R XR) (r : R) (k : Nat) :
    rng.vector (n := n) r k = (drawVec rng (rng.after r (k * n))).1 := by
  rw [drawVec_stream]

/-- One call. -/
theorem next_turn (hQ : Qᵀ * Q = 1) (hx : ExactRun env o) (h : History.Of env obj o t c) {r0 : R}
    {k : Nat} (hk : c.sampler.rng = env.rng.after r0 (k * n)) {kind : EvalKind}
    {res : Option (TerminationData n XR)} (hn : c.next env kind = .ok (d, res)) :
    ∃ k', k ≤ k' ∧ d.sampler.rng = env.rng.after r0 (k' * n) ∧
      ∀ {R' : Type} (env' : Env n XR R') (r0' : R') (c' : CMAES n XR R'), ExactSolver env'.eigen →
        SameSurroundings env env' → RunTurn Q env'.eigen c c' →
        c'.sampler.rng = env'.rng.after r0' (k * n) →
        (∀ j, k ≤ j → j < k' → ∀ z, env.rng.vector r0 j = Vec.fin z →
          env'.rng.vector r0' j = Vec.fin (drawTurnOf Q env'.eigen c.state *ᵥ z)) →
        ∃ d' res', c'.next env' kind = .ok (d', res') ∧ RunTurn Q env'.eigen d d' ∧
          d'.sampler.rng = env'.rng.after r0' (k' * n) ∧
          coordinateFree ((res'.map fun x => x.reasons).getD []) =
            coordinateFree ((res.map fun x => x.reasons).getD []) := by
  obtain ⟨gs, i, _⟩ := fresh_inv h
  obtain ⟨hp, hok⟩ := params_rep h
  obtain ⟨r, hr, hg, _⟩ := rep_inv hx h
  have hdraw : ∀ j, ∃ z : Fin n → ℝ, env.rng.vector (n := n) r0 j = Vec.fin z := by
    intro j
    rw [vector_draw, drawVec_eq]
    exact hx.draws _
  have hreal : ∀ j, RealPoint (c.state.cov.transform.mulVec (env.rng.vector r0 j)) := by
    intro j
    obtain ⟨z, hz⟩ := hdraw j
    rw [hz, hr.transform, Mat.mulVec_fin]
    exact ⟨_, rfl⟩
  have hA : Points Q c.state.mean (turn Q c.state.mean) c.state.sigma := by
    rw [hr.mean, hr.sigma, turn_fin]
    exact points_fin _ _
  obtain ⟨sres, hsam, hpar, hstep, hgap, htime, hcase⟩ := next_core hn
  obtain ⟨k', g1, g2, g3⟩ := sample_turn hA hreal hk hsam
  refine ⟨k', g1, g2, fun env' r0' c' he' hse hrun hk' hdeal => ?_⟩
  obtain ⟨r1, r1', hst⟩ := hrun.state
  obtain ⟨s1', hs1, hs2, hs3⟩ := g3 env' r0' c'.state.cov.transform c'.sampler hse.resampleFuel
    hrun.sampler hk' fun j h1 h2 => by
      obtain ⟨z, hz⟩ := hdraw j
      rw [hdeal j h1 h2 z hz, hz, hst.draw hQ, hst.rep.transform, hst.rep'.transform,
        Mat.mulVec_fin, Mat.mulVec_fin, turn_fin, transform_rot hQ hst.rot hst.good hst.good']
  have hsample : c'.sampler.sample env' kind (env'.sched c'.world.steps) c'.state.cov.transform
      c'.state.mean c'.state.sigma c'.parameters.mode =
      .ok (sres.map (List.map (turnPt Q)), s1') := by
    rw [hse.sched, hrun.steps, hst.mean_turn, hst.sigma_eq, hrun.parameters]
    exact hs1
  unfold CMAES.next
  simp only
  rw [hsample, Outcome.ok_bind]
  rcases hcase with ⟨rfl, hstate, hhist, hclock, rfl⟩ | ⟨inds, ok, rfl, hhist, hu, hfail, hdone⟩
  · refine ⟨_, _, rfl, ?_, hs3, rfl⟩
    refine ⟨hs2, by rw [hpar]; exact hrun.parameters, by rw [hhist]; exact hrun.history,
      ⟨r1, r1', by rw [hstate]; exact hst⟩, by rw [htime]; exact hrun.timeCreated, ?_, ?_, hrun.plot,
      hrun.printGapEvals⟩
    · show c'.world.steps + 1 = _
      rw [hstep, hrun.steps]
    · rw [hclock]; exact hrun.clockReads
  · obtain ⟨ys, calls, hrs, _, _, hcs⟩ := sample_cases hsam
    rcases hcs with ⟨h4, _⟩ | ⟨ps, inds', h4, hsm, hps, hfe⟩
    · cases h4
    injection h4 with h4
    subst h4
    have hmem : ∀ z ∈ ys, ∃ s, z = (Mat.fin r1.transform).mulVec (drawVec env.rng s).1 := by
      rw [← hst.rep.transform]
      exact resample_mem hrs (by simp)
    have hperm : (inds.map fun p => p.unscaledStep).Perm ys := by
      rw [← hps]; exact hsm.indsPerm.map _
    obtain ⟨zs, hz, hlen, hnz⟩ := real_steps hx hst.good hmem hperm
    have hzl : zs.length = o.populationSize := by
      rw [hlen, ← hperm.length_eq, List.length_map, hsm.length, i.populationSize]
    have hpos : 0 < d.sampler.functionEvals := by
      obtain ⟨_, _, _, pr⟩ := params_real h
      have := pr.size
      rw [hfe, i.populationSize]
      omega
    obtain ⟨s2', q1, q1', hup, hst'⟩ := update_turn (tree' := env'.redTree c'.world.steps) hQ hp hst
      hx.eigen he' hz (by rw [hzl]; exact hok.length) (fun k h1 h2 hneg => by
          by_cases hw : o.weights = .negative
          · exact invSqrt_ne hst.good (hnz hw _ (List.getElem_mem h2))
          · exact absurd (hok.nonneg hw _ (List.getElem_mem h1)) (not_le.mpr hneg)) hpos hu
    have hhist' : c'.history.update c'.parameters.mode (inds.map (turnPt Q)) =
        .ok (d.history.moved (turn Q)) := by
      rw [hrun.history, hrun.parameters, history_update_turn, hhist]
      rfl
    simp only [Option.map_some]
    rw [hhist', Outcome.ok_bind]
    unfold CMAES.nextInternal
    simp only
    rw [hs2.functionEvals, hrun.parameters, hup, Outcome.ok_bind]
    simp only
    cases ok with
    | false =>
      obtain ⟨rfl, hclock⟩ := hfail rfl
      rw [if_neg (by simp)]
      refine ⟨_, _, rfl, ?_, hs3, rfl⟩
      refine ⟨hs2, hpar.symm, rfl, ⟨q1, q1', hst'⟩,
        by rw [htime]; exact hrun.timeCreated, ?_, by rw [hclock]; exact hrun.clockReads, hrun.plot,
        hrun.printGapEvals⟩
      show c'.world.steps + 1 = _
      rw [hstep, hrun.steps]
    | true =>
      obtain ⟨hclock, reasons, hch, rfl⟩ := hdone rfl
      rw [if_pos rfl]
      unfold CMAES.autoPlot CMAES.autoPrint CMAES.checkTermination
      simp only [hrun.plot, hrun.printGapEvals, Outcome.ok_bind]
      have hchk := fun el (hel : el = if c.parameters.termination.maxTime.isSome then
          env.clock c.world.clockReads - c.timeCreated else 0) =>
        check_turn (Q := Q) (med := env'.medianNaN)
          (t := checkInput d (if c.parameters.termination.maxTime.isSome then
            env.clock c.world.clockReads - c.timeCreated else 0) inds)
          (t' := { evals := s1'.functionEvals, elapsed := el, parameters := c.parameters
                   state := s2', history := d.history.moved (turn Q)
                   individuals := inds.map (turnPt Q) }) hp.dim_ne hst'.rep hst'.rep' hst'.good
          hst'.good' (d_range hQ hst'.rot hst'.good hst'.good') hst'.rot.sigma hs2.functionEvals hel
          hpar.symm hst'.generation rfl rfl
          (by rw [hse.medianNaN]; exact hch)
      cases hm : c.parameters.termination.maxTime with
      | none =>
        rw [hm] at hclock
        obtain ⟨rs', e1, e2⟩ := hchk 0 (by rw [hm]; rfl)
        simp only [Option.isSome_none, Bool.false_eq_true, if_false, Nat.sub_self]
        rw [e1, Outcome.ok_bind]
        refine ⟨_, _, rfl, ?_, hs3, ?_⟩
        · refine ⟨hs2, hpar.symm, rfl, ⟨q1, q1', hst'⟩,
            by rw [htime]; exact hrun.timeCreated, ?_, by rw [hclock]; exact hrun.clockReads,
            rfl, rfl⟩
          show c'.world.steps + 1 = _
          rw [hstep, hrun.steps]
        · cases rs' <;> cases reasons <;> exact e2
      | some m =>
        rw [hm] at hclock
        obtain ⟨rs', e1, e2⟩ := hchk (env.clock c.world.clockReads - c.timeCreated) (by rw [hm]; rfl)
        simp only [Option.isSome_some, if_true, World.now, hse.clock, hrun.clockReads,
          hrun.timeCreated]
        rw [e1, Outcome.ok_bind]
        refine ⟨_, _, rfl, ?_, hs3, ?_⟩
        · refine ⟨hs2, hpar.symm, rfl, ⟨q1, q1', hst'⟩,
            by rw [htime], ?_, by rw [hclock]; rfl, rfl, rfl⟩
          show c'.world.steps + 1 = _
          rw [hstep, hrun.steps]
        · cases rs' <;> cases reasons <;> exact e2

end Cmaes
