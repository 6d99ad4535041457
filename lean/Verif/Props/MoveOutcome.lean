import Verif.Props.Move
import Verif.Props.MirrorOutcome

/-!
# Moving and scaling the search space, including panics
-/

set_option linter.unusedSectionVars false

namespace Cmaes
variable {n : Nat} {F R : Type} [Flt F]

theorem PlotLike.addDataPoint_gen {p p' : Plot n F} (h : PlotLike p p') (evals : Nat)
    {s s' : State n F} (hg : s'.generation = s.generation) (hi hi' : History n F) :
    PlotLike (p.addDataPoint evals s hi) (p'.addDataPoint evals s' hi') := by
  have h1 := h.addDataPoint evals s hi hi'
  have h2 : PlotLike (p'.addDataPoint evals s hi') (p'.addDataPoint evals s' hi') := by
    unfold Plot.addDataPoint
    rw [hg]
    have key : PlotLike ({ p' with
          data := p'.data.addDataPoint evals s hi'
          lastDataPointEvals := some evals
          lastDataPointGeneration := some s.generation } : Plot n F)
        { p' with
          data := p'.data.addDataPoint evals s' hi'
          lastDataPointEvals := some evals
          lastDataPointGeneration := some s.generation } := by
      refine ⟨rfl, rfl, rfl, ?_⟩
      constructor <;> simp [PlotData.addDataPoint]
    have rf : PlotLike p' p' :=
      ⟨rfl, rfl, rfl, ⟨rfl, rfl, rfl, rfl, rfl, fun _ => rfl, fun _ => rfl, fun _ => rfl⟩⟩
    cases p'.lastDataPointGeneration with
    | none => exact key
    | some g =>
      dsimp only
      by_cases hgg : (g == s.generation) = true
      · rw [if_pos hgg, if_pos hgg]; exact rf
      · rw [if_neg hgg, if_neg hgg]; exact key
  refine ⟨h2.options.trans h1.options, h2.evals.trans h1.evals, h2.generation.trans h1.generation, ?_⟩
  have a := h1.data
  have b := h2.data
  exact ⟨b.functionEvals.trans a.functionEvals, b.best.trans a.best, b.median.trans a.median,
    b.sigma.trans a.sigma, b.axisRatio.trans a.axisRatio, fun i => (b.mean i).trans (a.mean i),
    fun i => (b.eigen i).trans (a.eigen i), fun i => (b.scales i).trans (a.scales i)⟩

variable [FltLaws F] {S : Similarity n F}

/-- Moved, and printing and plotting at the same times. -/
structure FullMove (S : Similarity n F) (c c' : CMAES n F R) : Prop extends MoveSim S c c' where
  plot : Option.Rel PlotLike c.plot c'.plot
  printGapEvals : c'.printGapEvals = c.printGapEvals
  lastPrintEvals : c'.lastPrintEvals = c.lastPrintEvals

namespace FullMove
variable {c c' : CMAES n F R} {env : Env n F R}

theorem generation (h : FullMove S c c') : c'.state.generation = c.state.generation := by
  rw [h.state]; rfl

theorem print (h : FullMove S c c') (e e' : PrintEvent n F) :
    FullMove S (c.print e) (c'.print e') :=
  ⟨⟨h.sampler, h.state, h.parameters, h.history, h.timeCreated, h.steps, h.clockReads⟩,
    h.plot, h.printGapEvals, h.lastPrintEvals⟩

theorem addPlotPoint (h : FullMove S c c') : FullMove S c.addPlotPoint c'.addPlotPoint := by
  refine ⟨⟨h.sampler, h.state, h.parameters, h.history, h.timeCreated, h.steps,
    h.clockReads⟩, ?_, h.printGapEvals, h.lastPrintEvals⟩
  have hp := h.plot
  have hg := h.generation
  simp only [CMAES.addPlotPoint]
  rw [h.sampler.functionEvals]
  generalize c.plot = p at hp
  generalize c'.plot = p' at hp
  cases hp with
  | none => exact .none
  | some hp => exact .some (hp.addDataPoint_gen _ hg _ _)

theorem printFinalInfo (h : FullMove S c c') (l : List TerminationReason) :
    FullMove S (c.printFinalInfo l) (c'.printFinalInfo l) := by
  unfold CMAES.printFinalInfo
  rw [h.sampler.functionEvals, h.lastPrintEvals]
  by_cases hne : c.sampler.functionEvals ≠ c.lastPrintEvals
  · simp only [if_pos hne]
    exact (h.print _ _).print _ _
  · simp only [if_neg hne]
    exact h.print _ _

theorem runInternal (h : FullMove S c c') (d d' : TerminationData n F)
    (hd : d'.reasons = d.reasons) : FullMove S (c.runInternal d) (c'.runInternal d') := by
  unfold CMAES.runInternal
  have := h.addPlotPoint
  simp only [this.printGapEvals, hd]
  split
  · exact this.printFinalInfo _
  · exact this

theorem autoPlot (h : FullMove S c c') :
    Outcome.Rel (FullMove S) c.autoPlot c'.autoPlot := by
  unfold CMAES.autoPlot
  have hp := h.plot
  generalize c.plot = p at hp
  generalize c'.plot = p' at hp
  cases hp with
  | none => exact .ok h
  | some hp =>
    simp only [h.generation, h.sampler.functionEvals]
    by_cases hg : c.state.generation ≤ 1
    · simp only [hg, ↓reduceIte]; exact .ok h.addPlotPoint
    · simp only [hg, ↓reduceIte]
      have e : ∀ {p p' : Plot n F}, PlotLike p p' → p'.nextDataPointEvals = p.nextDataPointEvals := by
        intro p p' hp
        unfold Plot.nextDataPointEvals
        rw [hp.evals, hp.options]
      rw [e hp]
      refine Outcome.Rel.bind (Outcome.Rel.of_eq rfl) ?_
      rintro a _ rfl
      by_cases ha : a ≤ c.sampler.functionEvals
      · simp only [ha, ↓reduceIte]; exact .ok h.addPlotPoint
      · simp only [ha, ↓reduceIte]; exact .ok h

theorem autoPrint (h : FullMove S c c') :
    Outcome.Rel (FullMove S) c.autoPrint c'.autoPrint := by
  unfold CMAES.autoPrint
  rw [h.printGapEvals]
  cases c.printGapEvals with
  | none => exact .ok h
  | some g =>
    simp only [h.generation, h.sampler.functionEvals, h.lastPrintEvals]
    refine Outcome.Rel.bind (Outcome.Rel.of_eq rfl) ?_
    rintro a _ rfl
    refine .ok ?_
    by_cases ha : a ≤ c.sampler.functionEvals
    · simp only [ha, ↓reduceIte]
      have := h.print c.infoRow c'.infoRow
      exact ⟨⟨this.sampler, this.state, this.parameters, this.history,
        this.timeCreated, this.steps, this.clockReads⟩, this.plot, this.printGapEvals, rfl⟩
    · simp only [ha, ↓reduceIte]
      by_cases hg : c.state.generation < 4
      · simp only [hg, ↓reduceIte]; exact h.print _ _
      · simp only [hg, ↓reduceIte]; exact h

theorem checkTermination (h : FullMove S c c') (inds : List (EvaluatedPoint n F)) :
    Outcome.Rel (fun a b => FullMove S a.1 b.1 ∧ b.2 = a.2.map (TerminationData.moved S.pt))
      (c.checkTermination env inds)
      (c'.checkTermination env (inds.map (movePt S.pt))) := by
  unfold CMAES.checkTermination
  have fin : ∀ {d d' : CMAES n F R} (el : Nat), FullMove S d d' →
      Outcome.Rel (fun a b => FullMove S a.1 b.1 ∧ b.2 = a.2.map (TerminationData.moved S.pt))
        (do
          let reasons ← ({ evals := d.sampler.functionEvals, elapsed := el
                           parameters := d.parameters, state := d.state, history := d.history
                           individuals := inds } : TerminationCheck n F).check env.medianNaN
          .ok (d, if reasons.isEmpty then none else some (d.terminationData reasons)))
        (do
          let reasons ← ({ evals := d'.sampler.functionEvals, elapsed := el
                           parameters := d'.parameters, state := d'.state, history := d'.history
                           individuals := inds.map (movePt S.pt) } :
                           TerminationCheck n F).check env.medianNaN
          .ok (d', if reasons.isEmpty then none else some (d'.terminationData reasons))) := by
    intro d d' el hd
    have hcheck := check_move S (m := env.medianNaN) (t := { evals := d.sampler.functionEvals
                                                             elapsed := el
                                                             parameters := d.parameters
                                                             state := d.state
                                                             history := d.history
                                                             individuals := inds })
    simp only at hcheck
    rw [hd.sampler.functionEvals, hd.parameters, hd.toMoveSim.state, hd.history, hcheck]
    refine Outcome.Rel.bind (Outcome.Rel.of_eq rfl) ?_
    rintro a _ rfl
    refine .ok ⟨hd, ?_⟩
    simp only
    rw [MoveSim.data hd.history hd.state]
    split <;> rfl
  have hp : c'.parameters.termination.maxTime = c.parameters.termination.maxTime := by
    rw [h.parameters]; rfl
  cases hmt : c.parameters.termination.maxTime with
  | none =>
    simp only [hp, hmt, Option.isSome_none, Bool.false_eq_true, if_false, Nat.sub_self]
    exact fin 0 h
  | some m =>
    simp only [hp, hmt, Option.isSome_some, if_true, World.now, h.clockReads, h.timeCreated]
    have h1 : FullMove S
        { c with world := { c.world with clockReads := c.world.clockReads + 1 } }
        { c' with world := { c'.world with clockReads := c.world.clockReads + 1 } } :=
      ⟨⟨h.sampler, h.state, h.parameters, h.history, h.timeCreated, h.steps, rfl⟩, h.plot,
        h.printGapEvals, h.lastPrintEvals⟩
    have h2 := fin (env.clock c.world.clockReads - c.timeCreated) h1
    simp only [h.timeCreated] at h2
    exact h2

theorem nextInternal (h : FullMove S c c') (tree : SplitTree) (inds : List (EvaluatedPoint n F)) :
    Outcome.Rel (fun a b => FullMove S a.1 b.1 ∧ b.2 = a.2.map (TerminationData.moved S.pt))
      (c.nextInternal env tree inds)
      (c'.nextInternal env tree (inds.map (movePt S.pt))) := by
  unfold CMAES.nextInternal
  have hu' : c'.state.update env.eigen tree c'.sampler.functionEvals c'.parameters
      (inds.map (movePt S.pt)) = (fun r => (r.1.moved S, r.2)) <$>
        c.state.update env.eigen tree c.sampler.functionEvals c.parameters inds := by
    rw [h.state, h.sampler.functionEvals, h.parameters, update_move]
  rw [hu']
  cases hu : c.state.update env.eigen tree c.sampler.functionEvals c.parameters inds with
  | panic p => exact .panic p
  | diverge => exact .diverge
  | ok r =>
  obtain ⟨st, b⟩ := r
  simp only [Outcome.map_eq_bind, Outcome.ok_bind]
  have h1 : FullMove S { c with state := st } { c' with
      state := st.moved S } :=
    ⟨⟨h.sampler, rfl, h.parameters, h.history, h.timeCreated, h.steps, h.clockReads⟩,
      h.plot, h.printGapEvals, h.lastPrintEvals⟩
  cases b with
  | false =>
    refine .ok ⟨?_, ?_⟩
    · exact h1
    · simp only
      rw [MoveSim.data h1.history h1.state]
      rfl
  | true =>
    simp only [if_true]
    refine Outcome.Rel.bind h1.autoPlot ?_
    intro c1 c1' h2
    refine Outcome.Rel.bind h2.autoPrint ?_
    intro c2 c2' h3
    exact checkTermination h3 inds

theorem next {kind : EvalKind} (h : FullMove S c c') :
    Outcome.Rel (fun a b => FullMove S a.1 b.1 ∧ b.2 = a.2.map (TerminationData.moved S.pt))
      (c.next env kind) (c'.next env kind) := by
  unfold CMAES.next
  have hmode' : c'.parameters.mode = c.parameters.mode := by rw [h.parameters]; rfl
  have hrel := sample_move (env := env) (kind := kind)
    (sched := env.sched c.world.steps) (T := c.state.cov.transform) (mean := c.state.mean)
    (sigma := c.state.sigma) (mean' := S.pt c.state.mean) (sigma' := S.sc c.state.sigma)
    (mode := c.parameters.mode) (fun y => S.toPoint y _ _) h.sampler
  simp only
  rw [h.steps, hmode', h.state]
  refine Outcome.Rel.bind hrel ?_
  rintro ⟨res, s⟩ ⟨res', s'⟩ ⟨h1, h2⟩
  simp only at h1 h2
  subst h1
  cases res with
  | none =>
    refine .ok ⟨⟨⟨h2, ?_, h.parameters, h.history, h.timeCreated, rfl, h.clockReads⟩,
      h.plot, h.printGapEvals, h.lastPrintEvals⟩, ?_⟩
    · rfl
    · simp only [CMAES.terminationData, h.history]
      rfl
  | some inds =>
    simp only [Option.map_some]
    rw [h.history, history_update_move]
    cases hu : c.history.update c.parameters.mode inds with
    | panic p => exact .panic p
    | diverge => exact .diverge
    | ok hist =>
      show Outcome.Rel _ (CMAES.nextInternal _ _ _ _) (CMAES.nextInternal _ _ _ _)
      refine nextInternal ?_ _ inds
      exact ⟨⟨h2, rfl, h.parameters, rfl, h.timeCreated, rfl, h.clockReads⟩, h.plot,
        h.printGapEvals, h.lastPrintEvals⟩

theorem runLoop {kind : EvalKind} (fuel : Nat) {c c' : CMAES n F R} (h : FullMove S c c') :
    Outcome.Rel (fun a b => FullMove S a.1 b.1 ∧ b.2 = a.2.moved S.pt)
      (c.runLoop env kind fuel) (c'.runLoop env kind fuel) := by
  induction fuel generalizing c c' with
  | zero => exact .diverge
  | succ fuel ih =>
    simp only [CMAES.runLoop]
    refine Outcome.Rel.bind (next h) ?_
    rintro ⟨a, r⟩ ⟨b, r'⟩ ⟨h1, h2⟩
    simp only at h1 h2
    subst h2
    cases r with
    | none => exact ih h1
    | some d => exact .ok ⟨h1, rfl⟩

theorem run {kind : EvalKind} (h : FullMove S c c') :
    Outcome.Rel (fun a b => FullMove S a.1 b.1 ∧ b.2 = a.2.moved S.pt)
      (c.run env kind) (c'.run env kind) := by
  unfold CMAES.run
  refine Outcome.Rel.bind (runLoop _ h) ?_
  rintro ⟨a, d⟩ ⟨b, d'⟩ ⟨h1, h2⟩
  simp only at h1 h2
  subst h2
  exact .ok ⟨h1.runInternal _ _ rfl, rfl⟩

theorem clearPlot (h : FullMove S c c') :
    Outcome.Rel (FullMove S) c.clearPlot c'.clearPlot := by
  unfold CMAES.clearPlot
  have hp := h.plot
  generalize c.plot = p at hp
  generalize c'.plot = p' at hp
  cases hp with
  | none => exact .ok h
  | some hp =>
    refine Outcome.Rel.bind hp.clear fun q q' hq => ?_
    exact .ok ⟨⟨h.sampler, h.state, h.parameters, h.history, h.timeCreated, h.steps,
      h.clockReads⟩, .some hq, h.printGapEvals, h.lastPrintEvals⟩

theorem apply (op : Op) (h : FullMove S c c') :
    Outcome.Rel (fun a b => FullMove S a.1 b.1 ∧ b.2 = a.2.map (TerminationData.moved S.pt))
      (c.apply env op) (c'.apply env op) := by
  cases op with
  | next k => exact next h
  | run k =>
    refine Outcome.Rel.bind (run h) ?_
    rintro ⟨a, d⟩ ⟨b, d'⟩ ⟨h1, h2⟩
    simp only at h1 h2
    subst h2
    exact .ok ⟨h1, rfl⟩
  | addPlotPoint => exact .ok ⟨h.addPlotPoint, rfl⟩
  | clearPlot =>
    refine Outcome.Rel.bind h.clearPlot ?_
    intro a b h1
    exact .ok ⟨h1, rfl⟩
  | printInitialInfo => exact .ok ⟨h.print _ _, rfl⟩
  | printInfo => exact .ok ⟨h.print _ _, rfl⟩
  | printFinalInfo l => exact .ok ⟨h.printFinalInfo l, rfl⟩
  | printRunInfo k => exact .ok ⟨h.print _ _, rfl⟩

theorem applyAll (ops : List Op) {c c' : CMAES n F R} (h : FullMove S c c') :
    Outcome.Rel (fun a b => FullMove S a.1 b.1 ∧
        b.2 = a.2.map (Option.map (TerminationData.moved S.pt)))
      (c.applyAll env ops) (c'.applyAll env ops) := by
  induction ops generalizing c c' with
  | nil => exact .ok ⟨h, rfl⟩
  | cons op ops ih =>
    simp only [CMAES.applyAll]
    refine Outcome.Rel.bind (apply op h) ?_
    rintro ⟨a, r⟩ ⟨b, r'⟩ ⟨h1, h2⟩
    simp only at h1 h2
    subst h2
    refine Outcome.Rel.bind (ih h1) ?_
    rintro ⟨a', r⟩ ⟨b', r''⟩ ⟨h3, h4⟩
    simp only at h3 h4
    subst h4
    exact .ok ⟨h3, rfl⟩

end FullMove

section
variable {env : Env n XR R} {w w' : World n XR} {obj obj' : Obj n XR} {o o' : Options n XR}
  {c0 c0' : CMAES n XR R} {α : ℝ} {τ : Fin n → ℝ}

/-- Freshly built. -/
theorem create_fullMove (hα : 0 < α) (ho : MovedOptions α τ o o')
    (hobj : Moved (affine α τ) obj.f obj'.f) (hlog : obj'.log = moveCalls (affine α τ) obj.log)
    (hw : w'.steps = w.steps ∧ w'.clockReads = w.clockReads) :
    FullMove (similarity hα τ) (CMAES.create env w obj o) (CMAES.create env w' obj' o') := by
  have hr := ho.rest
  refine ⟨create_move hα ho hobj hlog hw, ?_, ?_, ?_⟩
  · have hq : ∀ (w : World n XR) (obj : Obj n XR) (o : Options n XR),
        (CMAES.create env w obj o).plot = (o.plotOptions.map fun po =>
          (Plot.new po o.mode : Plot n XR)).map fun p =>
            p.addDataPoint 0 (State.new o.initialMean o.initialStepSize) History.new := by
      intro w obj o
      unfold CMAES.create
      cases o.printGapEvals <;> rfl
    have e1 : o'.plotOptions = o.plotOptions := by rw [hr]
    have e2 : o'.mode = o.mode := by rw [hr]
    rw [hq, hq, e1, e2]
    cases o.plotOptions with
    | none => exact .none
    | some po =>
      refine .some ?_
      dsimp only
      refine PlotLike.addDataPoint_gen ?_ _ ?_ _ _
      swap
      · rfl
      exact ⟨rfl, rfl, rfl, ⟨rfl, rfl, rfl, rfl, rfl, fun _ => rfl, fun _ => rfl, fun _ => rfl⟩⟩
  · rw [(create_search env w obj o).2.2.2.2.1, (create_search env w' obj' o').2.2.2.2.1, hr]
  · rw [(create_search env w obj o).2.2.2.2.2.2.2.2,
      (create_search env w' obj' o').2.2.2.2.2.2.2.2]

/-- **C40, all outcomes.** In exact arithmetic, the same user calls on a `CMAES` that searches for
the optimum of `obj` and on one that searches, with moved options, for the optimum of the objective
moved by `x ↦ α * x + τ` have the same outcome: both panic in the same way, or neither ends, or both
return the same data with moved points, after objective calls on the moved points with equal
values, with moved mean, scaled step size and equal covariance matrix. -/
theorem c40_outcome (hα : 0 < α) (ho : MovedOptions α τ o o')
    (hobj : Moved (affine α τ) obj.f obj'.f) (hlog : obj'.log = moveCalls (affine α τ) obj.log)
    (hw : w'.steps = w.steps ∧ w'.clockReads = w.clockReads)
    (h0 : CMAES.new env w obj o = .ok c0) (h0' : CMAES.new env w' obj' o' = .ok c0')
    (ops : List Op) :
    Outcome.Rel (fun a b =>
        b.2 = a.2.map (Option.map (TerminationData.moved (affine α τ))) ∧
        b.1.intoObjectiveFunction.log = moveCalls (affine α τ) a.1.intoObjectiveFunction.log ∧
        b.1.mean = affine α τ a.1.mean ∧ b.1.sigma = .fin α * a.1.sigma ∧
        b.1.covarianceMatrix = a.1.covarianceMatrix ∧ b.1.generation = a.1.generation ∧
        b.1.functionEvals = a.1.functionEvals ∧
        b.1.currentBestIndividual =
          a.1.currentBestIndividual.map (Individual.moved (affine α τ)) ∧
        b.1.overallBestIndividual =
          a.1.overallBestIndividual.map (Individual.moved (affine α τ)))
      (c0.applyAll env ops) (c0'.applyAll env ops) := by
  have e := (new_eq_ok h0).2
  have e' := (new_eq_ok h0').2
  have hs : FullMove (similarity hα τ) c0 c0' := by
    rw [e, e']; exact create_fullMove hα ho hobj hlog hw
  refine (FullMove.applyAll ops hs).mono ?_
  rintro a b ⟨h1, h2⟩
  refine ⟨h2, h1.sampler.obj.log, ?_, ?_, ?_, ?_, h1.sampler.functionEvals, ?_, ?_⟩
  · unfold CMAES.mean; rw [h1.state]; rfl
  · unfold CMAES.sigma; rw [h1.state]; rfl
  · unfold CMAES.covarianceMatrix; rw [h1.state]; rfl
  · unfold CMAES.generation; rw [h1.state]; rfl
  · unfold CMAES.currentBestIndividual; rw [h1.history]; rfl
  · unfold CMAES.overallBestIndividual; rw [h1.history]; rfl

end

namespace WitnessReal

/-- C40: the hypotheses are met by two users whose calls return, after two generations. -/
example : ∃ c0 c0' x x',
    CMAES.new (renv 2) World.init sphere opts = .ok c0 ∧
    CMAES.new (renv 2) World.init movedSphere movedOpts = .ok c0' ∧
    c0.applyAll (renv 2) [.next .seq, .next .par, .printInfo] = .ok x ∧
    c0'.applyAll (renv 2) [.next .seq, .next .par, .printInfo] = .ok x' ∧
    x.1.generation = 2 := by
  obtain ⟨c0, c0', _, _, _, _, h0, h0', -⟩ := moved_run 0 (by norm_num)
  have hg0 : c0.generation = 0 := by rw [(new_eq_ok h0).2]; rfl
  have hx := witness_exact opts.weights 6
  have hr : rateSum opts < 1 := rateSum_lt_one (by norm_num) (by norm_num [opts, Options.new])
    (by norm_num [opts, Options.new])
  have hv : ∀ log x, Flt.isNaN (sphere.f log x) = false := fun log x => XR.isNaN_fin _
  obtain ⟨c1, r1, l1, e1, -, -, g1, H1⟩ := exact_step hx hr ⟨_, _, h0, .refl _⟩
    (witness_canStep (renv 2) (fun l => ⟨_, rfl⟩) opts.weights 6 (by rw [hg0]; norm_num))
    (.inl ⟨rfl, by decide⟩) hv .seq
  obtain ⟨c2, r2, l2, e2, -, -, g2, H2⟩ := exact_step hx hr H1
    (witness_canStep (renv 2) (fun l => ⟨_, rfl⟩) opts.weights 6 (by rw [g1, hg0]; norm_num))
    (.inl ⟨rfl, by decide⟩) hv .par
  have hall : c0.applyAll (renv 2) [.next .seq, .next .par, .printInfo] =
      .ok (c2.printInfo, [r1, r2, none]) := by
    simp only [CMAES.applyAll, CMAES.apply, e1, e2, Outcome.ok_bind]
  have hrel := c40_outcome (by norm_num) moved_opts moved_sphere rfl ⟨rfl, rfl⟩ h0 h0'
    [.next .seq, .next .par, .printInfo]
  rw [hall] at hrel
  generalize hy : c0'.applyAll (renv 2) [.next .seq, .next .par, .printInfo] = y at hrel
  cases hrel with
  | ok _ =>
    refine ⟨c0, c0', _, _, h0, h0', hall, hy, ?_⟩
    show c2.generation = 2
    rw [g2, g1, hg0]

/-- C40: and by two users whose first call panics, in a constraint. -/
example : ∃ c0 c0',
    MovedOptions 2 (fun i => if i = 0 then 3 else -1)
      { opts with constraints := some fun _ => .panic .other }
      { movedOpts with constraints := some fun _ => .panic .other } ∧
    CMAES.new (renv 2) World.init sphere { opts with constraints := some fun _ => .panic .other } =
      .ok c0 ∧
    CMAES.new (renv 2) World.init movedSphere
      { movedOpts with constraints := some fun _ => .panic .other } = .ok c0' ∧
    c0.applyAll (renv 2) [.next .seq] = .panic .other ∧
    c0'.applyAll (renv 2) [.next .seq] = .panic .other := by
  obtain ⟨a0, a0', _, _, _, _, h0, h0', -⟩ := moved_run 0 (by norm_num)
  have hm : MovedOptions 2 (fun i => if i = 0 then 3 else -1)
      { opts with constraints := some fun _ => .panic .other }
      { movedOpts with constraints := some fun _ => .panic .other } :=
    ⟨rfl, .some fun _ => rfl⟩
  obtain ⟨c0, k0⟩ := (c30_valid_iff (renv 2) World.init sphere
    { opts with constraints := some fun _ => .panic .other }).mpr
      ((c30_valid_iff (renv 2) World.init sphere opts).mp ⟨_, h0⟩)
  obtain ⟨c0', k0'⟩ := (c30_valid_iff (renv 2) World.init movedSphere
    { movedOpts with constraints := some fun _ => .panic .other }).mpr
      ((c30_valid_iff (renv 2) World.init movedSphere movedOpts).mp ⟨_, h0'⟩)
  have hp : c0.applyAll (renv 2) [.next .seq] = .panic .other := by
    rw [(new_eq_ok k0).2]
    rfl
  have hrel := c40_outcome (by norm_num) hm moved_sphere rfl ⟨rfl, rfl⟩ k0 k0' [.next .seq]
  rw [hp] at hrel
  generalize hy : c0'.applyAll (renv 2) [.next .seq] = y at hrel
  cases hrel with
  | panic _ => exact ⟨c0, c0', hm, k0, k0', hp, hy⟩

end WitnessReal

end Cmaes
