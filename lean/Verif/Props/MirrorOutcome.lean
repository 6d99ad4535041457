import Verif.Props.Mirror
import Verif.Lemmas.Twin
import Verif.Float.Signed

/-!
# Maximizing and minimizing, including panics
-/

set_option linter.unusedSectionVars false

namespace Cmaes
variable {n : Nat} {F R : Type} [Flt F]
open FltLaws

/-! ### Plots of the same shape -/

/-- Plot data of the same shape. -/
structure DataLike (d d' : PlotData n F) : Prop where
  functionEvals : d'.functionEvals.length = d.functionEvals.length
  best : d'.bestFunctionValue.length = d.bestFunctionValue.length
  median : d'.medianFunctionValue.length = d.medianFunctionValue.length
  sigma : d'.sigma.length = d.sigma.length
  axisRatio : d'.axisRatio.length = d.axisRatio.length
  mean : ∀ i, (d'.meanDimensions i).length = (d.meanDimensions i).length
  eigen : ∀ i, (d'.sqrtEigenvalues i).length = (d.sqrtEigenvalues i).length
  scales : ∀ i, (d'.coordAxisScales i).length = (d.coordAxisScales i).length

/-- Plots of the same shape. -/
structure PlotLike (p p' : Plot n F) : Prop where
  options : p'.options = p.options
  evals : p'.lastDataPointEvals = p.lastDataPointEvals
  generation : p'.lastDataPointGeneration = p.lastDataPointGeneration
  data : DataLike p.data p'.data

theorem PlotLike.addDataPoint {p p' : Plot n F} (h : PlotLike p p') (evals : Nat) (s : State n F)
    (hi hi' : History n F) : PlotLike (p.addDataPoint evals s hi) (p'.addDataPoint evals s hi') := by
  unfold Plot.addDataPoint
  rw [h.generation]
  have key : PlotLike ({ p with
        data := p.data.addDataPoint evals s hi
        lastDataPointEvals := some evals
        lastDataPointGeneration := some s.generation } : Plot n F)
      { p' with
        data := p'.data.addDataPoint evals s hi'
        lastDataPointEvals := some evals
        lastDataPointGeneration := some s.generation } := by
    refine ⟨h.options, rfl, rfl, ?_⟩
    have hd := h.data
    constructor <;> simp [PlotData.addDataPoint, hd.functionEvals, hd.best, hd.median, hd.sigma,
      hd.axisRatio, hd.mean, hd.eigen, hd.scales]
  cases p.lastDataPointGeneration with
  | none => exact key
  | some g =>
    dsimp only
    by_cases hg : (g == s.generation) = true
    · rw [if_pos hg, if_pos hg]; exact h
    · rw [if_neg hg, if_neg hg]; exact key

theorem clearSeries_like {α : Type} {l l' : List α} (h : l'.length = l.length) :
    Outcome.Rel (fun a b => b.length = a.length) (clearSeries l) (clearSeries l') := by
  cases l with
  | nil =>
    have : l' = [] := List.length_eq_zero_iff.mp h
    subst this
    exact .panic _
  | cons a l =>
    cases l' with
    | nil => simp at h
    | cons b l' =>
      refine .ok ?_
      simp

theorem mapM_like {ι α : Type} {f g : ι → Outcome (List α)}
    (h : ∀ i, Outcome.Rel (fun a b => b.length = a.length) (f i) (g i)) (l : List ι) :
    Outcome.Rel (List.Forall₂ fun a b => b.length = a.length) (l.mapM f) (l.mapM g) := by
  induction l with
  | nil => exact .ok .nil
  | cons i l ih =>
    simp only [List.mapM_cons]
    refine Outcome.Rel.bind (h i) ?_
    intro a b hab
    refine Outcome.Rel.bind ih ?_
    intro as bs has
    exact .ok (.cons hab has)

theorem forall2_getD {α : Type} {l l' : List (List α)}
    (h : List.Forall₂ (fun a b => b.length = a.length) l l') (i : Nat) :
    (l'.getD i []).length = (l.getD i []).length := by
  induction h generalizing i with
  | nil => rfl
  | cons hab _ ih =>
    cases i with
    | zero => simpa using hab
    | succ i => simpa using ih i

theorem clearDims_like {f g : Fin n → List F} (h : ∀ i, (g i).length = (f i).length) :
    Outcome.Rel (fun a b => ∀ i, (b i).length = (a i).length) (clearDims f) (clearDims g) := by
  unfold clearDims
  refine Outcome.Rel.bind (mapM_like (fun i => clearSeries_like (h i)) _) ?_
  intro a b hab
  exact .ok fun i => forall2_getD hab i

theorem PlotLike.clear {p p' : Plot n F} (h : PlotLike p p') :
    Outcome.Rel PlotLike p.clear p'.clear := by
  unfold Plot.clear PlotData.clear
  have hd := h.data
  simp only [bind_assoc]
  refine Outcome.Rel.bind (clearSeries_like hd.functionEvals) fun a1 b1 h1 => ?_
  refine Outcome.Rel.bind (clearSeries_like hd.best) fun a2 b2 h2 => ?_
  refine Outcome.Rel.bind (clearSeries_like hd.median) fun a3 b3 h3 => ?_
  refine Outcome.Rel.bind (clearSeries_like hd.sigma) fun a4 b4 h4 => ?_
  refine Outcome.Rel.bind (clearSeries_like hd.axisRatio) fun a5 b5 h5 => ?_
  refine Outcome.Rel.bind (clearDims_like hd.mean) fun a6 b6 h6 => ?_
  refine Outcome.Rel.bind (clearDims_like hd.scales) fun a7 b7 h7 => ?_
  refine Outcome.Rel.bind (clearDims_like hd.eigen) fun a8 b8 h8 => ?_
  exact .ok ⟨h.options, h.evals, h.generation, ⟨h1, h2, h3, h4, h5, h6, h8, h7⟩⟩

variable [FltLaws F]

/-! ### The mirrored `CMAES` -/

/-- Mirrored, and printing and plotting at the same times. -/
structure FullMirror (c c' : CMAES n F R) : Prop extends MirrorSim c c' where
  plot : Option.Rel PlotLike c.plot c'.plot
  printGapEvals : c'.printGapEvals = c.printGapEvals
  lastPrintEvals : c'.lastPrintEvals = c.lastPrintEvals

namespace FullMirror
variable {c c' : CMAES n F R} {env : Env n F R}

theorem print (h : FullMirror c c') (e e' : PrintEvent n F) :
    FullMirror (c.print e) (c'.print e') :=
  ⟨⟨h.sampler, h.state, h.mode, h.parameters, h.history, h.timeCreated, h.steps, h.clockReads⟩,
    h.plot, h.printGapEvals, h.lastPrintEvals⟩

theorem addPlotPoint (h : FullMirror c c') : FullMirror c.addPlotPoint c'.addPlotPoint := by
  refine ⟨⟨h.sampler, h.state, h.mode, h.parameters, h.history, h.timeCreated, h.steps,
    h.clockReads⟩, ?_, h.printGapEvals, h.lastPrintEvals⟩
  have hp := h.plot
  simp only [CMAES.addPlotPoint]
  rw [h.sampler.functionEvals, h.state]
  generalize c.plot = p at hp
  generalize c'.plot = p' at hp
  cases hp with
  | none => exact .none
  | some hp => exact .some (hp.addDataPoint _ _ _ _)

theorem printFinalInfo (h : FullMirror c c') (l : List TerminationReason) :
    FullMirror (c.printFinalInfo l) (c'.printFinalInfo l) := by
  unfold CMAES.printFinalInfo
  rw [h.sampler.functionEvals, h.lastPrintEvals]
  by_cases hne : c.sampler.functionEvals ≠ c.lastPrintEvals
  · simp only [if_pos hne]
    exact (h.print _ _).print _ _
  · simp only [if_neg hne]
    exact h.print _ _

theorem runInternal (h : FullMirror c c') (d d' : TerminationData n F)
    (hd : d'.reasons = d.reasons) : FullMirror (c.runInternal d) (c'.runInternal d') := by
  unfold CMAES.runInternal
  have := h.addPlotPoint
  simp only [this.printGapEvals, hd]
  split
  · exact this.printFinalInfo _
  · exact this

theorem autoPlot (h : FullMirror c c') :
    Outcome.Rel FullMirror c.autoPlot c'.autoPlot := by
  unfold CMAES.autoPlot
  have hp := h.plot
  generalize c.plot = p at hp
  generalize c'.plot = p' at hp
  cases hp with
  | none => exact .ok h
  | some hp =>
    simp only [h.state, h.sampler.functionEvals]
    by_cases hg : c.state.generation ≤ 1
    · simp only [hg, ↓reduceIte]; exact .ok h.addPlotPoint
    · simp only [hg, ↓reduceIte]
      have e : ∀ {p p' : Plot n F}, PlotLike p p' → p'.nextDataPointEvals = p.nextDataPointEvals := by
        intro p p' hp
        unfold Plot.nextDataPointEvals
        rw [hp.evals, hp.options]
      rw [e hp]
      refine Outcome.Rel.bind (Outcome.Rel.of_eq rfl) ?_
      rintro a _ rfl
      by_cases ha : a ≤ c.sampler.functionEvals
      · simp only [ha, ↓reduceIte]; exact .ok h.addPlotPoint
      · simp only [ha, ↓reduceIte]; exact .ok h

theorem autoPrint (h : FullMirror c c') :
    Outcome.Rel FullMirror c.autoPrint c'.autoPrint := by
  unfold CMAES.autoPrint
  rw [h.printGapEvals]
  cases c.printGapEvals with
  | none => exact .ok h
  | some g =>
    simp only [h.state, h.sampler.functionEvals, h.lastPrintEvals]
    refine Outcome.Rel.bind (Outcome.Rel.of_eq rfl) ?_
    rintro a _ rfl
    refine .ok ?_
    by_cases ha : a ≤ c.sampler.functionEvals
    · simp only [ha, ↓reduceIte]
      have := h.print c.infoRow c'.infoRow
      exact ⟨⟨this.sampler, this.state, this.mode, this.parameters, this.history,
        this.timeCreated, this.steps, this.clockReads⟩, this.plot, this.printGapEvals, rfl⟩
    · simp only [ha, ↓reduceIte]
      by_cases hg : c.state.generation < 4
      · simp only [hg, ↓reduceIte]; exact h.print _ _
      · simp only [hg, ↓reduceIte]; exact h

theorem checkTermination (h : FullMirror c c') (hm : MedianOk env c.history)
    (inds : List (EvaluatedPoint n F)) :
    Outcome.Rel (fun a b => FullMirror a.1 b.1 ∧ b.2 = a.2.map TerminationData.negated)
      (c.checkTermination env inds)
      (c'.checkTermination env (inds.map (mapPt fun v => -v))) := by
  unfold CMAES.checkTermination
  have fin : ∀ {d d' : CMAES n F R} (el : Nat), FullMirror d d' → d.history = c.history →
      Outcome.Rel (fun a b => FullMirror a.1 b.1 ∧ b.2 = a.2.map TerminationData.negated)
        (do
          let reasons ← ({ evals := d.sampler.functionEvals, elapsed := el
                           parameters := d.parameters, state := d.state, history := d.history
                           individuals := inds } : TerminationCheck n F).check env.medianNaN
          .ok (d, if reasons.isEmpty then none else some (d.terminationData reasons)))
        (do
          let reasons ← ({ evals := d'.sampler.functionEvals, elapsed := el
                           parameters := d'.parameters, state := d'.state, history := d'.history
                           individuals := inds.map (mapPt fun v => -v) } :
                           TerminationCheck n F).check env.medianNaN
          .ok (d', if reasons.isEmpty then none else some (d'.terminationData reasons))) := by
    intro d d' el hd hh
    have hcheck := check_neg (m := env.medianNaN) (t := { evals := d.sampler.functionEvals
                                                          elapsed := el
                                                          parameters := d.parameters
                                                          state := d.state
                                                          history := d.history
                                                          individuals := inds }) hd.mode
      hd.history (by rw [← hh] at hm; exact hm)
    simp only at hcheck
    rw [hd.sampler.functionEvals, hd.parameters, hd.toMirrorSim.state, hcheck]
    refine Outcome.Rel.bind (Outcome.Rel.of_eq rfl) ?_
    rintro a _ rfl
    refine .ok ⟨hd, ?_⟩
    simp only
    rw [MirrorSim.data hd.history hd.state]
    split <;> rfl
  have hp : c'.parameters.termination.maxTime = c.parameters.termination.maxTime := by
    rw [h.parameters]; rfl
  cases hmt : c.parameters.termination.maxTime with
  | none =>
    simp only [hp, hmt, Option.isSome_none, Bool.false_eq_true, if_false, Nat.sub_self]
    exact fin 0 h rfl
  | some m =>
    simp only [hp, hmt, Option.isSome_some, if_true, World.now, h.clockReads, h.timeCreated]
    have h1 : FullMirror
        { c with world := { c.world with clockReads := c.world.clockReads + 1 } }
        { c' with world := { c'.world with clockReads := c.world.clockReads + 1 } } :=
      ⟨⟨h.sampler, h.state, h.mode, h.parameters, h.history, h.timeCreated, h.steps, rfl⟩, h.plot,
        h.printGapEvals, h.lastPrintEvals⟩
    have h2 := fin (env.clock c.world.clockReads - c.timeCreated) h1 rfl
    simp only [h.timeCreated] at h2
    exact h2

theorem nextInternal (h : FullMirror c c') (hm : MedianOk env c.history) (tree : SplitTree)
    (inds : List (EvaluatedPoint n F)) :
    Outcome.Rel (fun a b => FullMirror a.1 b.1 ∧ b.2 = a.2.map TerminationData.negated)
      (c.nextInternal env tree inds)
      (c'.nextInternal env tree (inds.map (mapPt fun v => -v))) := by
  unfold CMAES.nextInternal
  have hu : c'.state.update env.eigen tree c'.sampler.functionEvals c'.parameters
        (inds.map (mapPt fun v => -v)) =
      c.state.update env.eigen tree c.sampler.functionEvals c.parameters inds := by
    rw [h.state, h.sampler.functionEvals]
    exact update_congr (map_step_mapPt (fun v => -v) inds)
      ⟨_, _, c.parameters.seed, by rw [h.parameters]; rfl⟩
  rw [hu]
  refine Outcome.Rel.bind (Outcome.Rel.of_eq rfl) ?_
  rintro ⟨st, b⟩ _ rfl
  have h1 : FullMirror { c with state := st } { c' with state := st } :=
    ⟨⟨h.sampler, rfl, h.mode, h.parameters, h.history, h.timeCreated, h.steps, h.clockReads⟩,
      h.plot, h.printGapEvals, h.lastPrintEvals⟩
  cases b with
  | false =>
    refine .ok ⟨h1, ?_⟩
    simp only
    rw [MirrorSim.data h1.history h1.state]
    rfl
  | true =>
    simp only [if_true]
    have hr := h1.autoPlot
    generalize hx : ({ c with state := st } : CMAES n F R).autoPlot = x at hr
    generalize ({ c' with state := st } : CMAES n F R).autoPlot = y at hr
    cases hr with
    | panic p => exact .panic p
    | diverge => exact .diverge
    | ok h2 =>
      rename_i c1 c1'
      have e1 : c1.history = c.history := (sameSearch_autoPlot hx).history
      simp only [Outcome.ok_bind]
      have hr := h2.autoPrint
      generalize hx' : c1.autoPrint = x at hr
      generalize c1'.autoPrint = y at hr
      cases hr with
      | panic p => exact .panic p
      | diverge => exact .diverge
      | ok h3 =>
        rename_i c2 c2'
        have e2 : c2.history = c.history := (sameSearch_autoPrint hx').history.trans e1
        simp only [Outcome.ok_bind]
        exact checkTermination h3 (by rw [e2]; exact hm) inds

theorem next {kind : EvalKind} (h : FullMirror c c')
    (hm : ∀ inds s hist, c.sampler.sample env kind (env.sched c.world.steps)
      c.state.cov.transform c.state.mean c.state.sigma c.parameters.mode = .ok (some inds, s) →
      c.history.update c.parameters.mode inds = .ok hist → MedianOk env hist) :
    Outcome.Rel (fun a b => FullMirror a.1 b.1 ∧ b.2 = a.2.map TerminationData.negated)
      (c.next env kind) (c'.next env kind) := by
  unfold CMAES.next
  have hmode' : c'.parameters.mode = .minimize := by rw [h.parameters]; rfl
  rw [h.mode] at hm
  have hrel := sample_sim (env := env) (env' := env) rfl rfl (kind := kind)
    (sched := env.sched c.world.steps) (T := c.state.cov.transform) (mean := c.state.mean)
    (sigma := c.state.sigma) (keySim_neg c.sampler.obj.f) h.sampler
  simp only
  rw [h.state, h.steps, hmode', h.mode]
  generalize hx : c.sampler.sample env kind (env.sched c.world.steps)
    c.state.cov.transform c.state.mean c.state.sigma .maximize = x at hrel hm
  generalize c'.sampler.sample env kind (env.sched c.world.steps)
    c.state.cov.transform c.state.mean c.state.sigma .minimize = y at hrel
  cases hrel with
  | panic p => exact .panic p
  | diverge => exact .diverge
  | ok hab =>
    rename_i a b
    obtain ⟨res, s⟩ := a
    obtain ⟨res', s'⟩ := b
    obtain ⟨h1, h2⟩ := hab
    simp only at h1 h2
    subst h1
    simp only [Outcome.ok_bind]
    cases res with
    | none =>
      refine .ok ⟨⟨⟨h2, rfl, h.mode, h.parameters, h.history, h.timeCreated, rfl, h.clockReads⟩,
        h.plot, h.printGapEvals, h.lastPrintEvals⟩, ?_⟩
      simp only [CMAES.terminationData, h.history.currentBest, h.history.overallBest]
      rfl
    | some inds =>
      simp only [Option.map_some]
      have hr := h.history.update inds
      generalize hu : c.history.update .maximize inds = x at hr
      generalize c'.history.update .minimize (inds.map (mapPt fun v => -v)) = y at hr
      cases hr with
      | panic p => exact .panic p
      | diverge => exact .diverge
      | ok hr =>
        rename_i hist hist'
        show Outcome.Rel _ (CMAES.nextInternal _ _ _ _) (CMAES.nextInternal _ _ _ _)
        refine nextInternal ?_ (hm inds s hist rfl hu) _ inds
        exact ⟨⟨h2, rfl, h.mode, h.parameters, hr, h.timeCreated, rfl, h.clockReads⟩, h.plot,
          h.printGapEvals, h.lastPrintEvals⟩

theorem pushCapped_mem {x y : F} {l : List F} (h : y ∈ pushCapped x l) : y = x ∨ y ∈ l := by
  unfold pushCapped at h
  dsimp only at h
  split at h
  · exact List.mem_cons.mp (List.mem_of_mem_dropLast h)
  · exact List.mem_cons.mp h

/-- The condition holds for the history after a step, even if the step ends with a panic. -/
theorem medianOk {w : World n F} {obj : Obj n F} {o : Options n F} {kind : EvalKind}
    {t : List (NextCall n F)} {c0 : CMAES n F R} (hmed : MirroredMedians env obj.f)
    (h0 : CMAES.new env w obj o = .ok c0) (he : Exec env c0 t c)
    (inds : List (EvaluatedPoint n F)) (s : Sampler n F R) (hist : History n F)
    (h1 : c.sampler.sample env kind (env.sched c.world.steps) c.state.cov.transform c.state.mean
      c.state.sigma c.parameters.mode = .ok (some inds, s))
    (h2 : c.history.update c.parameters.mode inds = .ok hist) : MedianOk env hist := by
  intro l l' hl hsub hll
  rcases hmed with hmed | hmed
  · exact hmed l l' hll
  · exfalso
    have hO : History.Of env obj o t c := ⟨w, c0, h0, he⟩
    obtain ⟨x, hx, hxn⟩ := hl
    obtain ⟨ys, calls, _, hlog, hs', hcase⟩ := sample_cases h1
    rcases hcase with ⟨hc, _⟩ | ⟨ps, inds', hc, hsam, _⟩
    · simp at hc
    simp only [Option.some.injEq] at hc
    subst hc
    obtain ⟨calls', hobj, hfa⟩ := sample_faithful h1
    have hcc : calls' = calls := by
      rw [hobj] at hlog
      exact List.append_cancel_left hlog
    subst hcc
    have hf : c.sampler.obj.f = obj.f := by
      obtain ⟨_, i, _⟩ := fresh_inv hO
      exact i.f
    rw [hf] at hfa
    have hval : ∀ p ∈ inds, ∃ l y, p.value = obj.f l y := by
      intro p hp
      exact hfa.mem (e := p.call) (hsam.callsPerm.mem_iff.mpr (List.mem_map.mpr ⟨p, hp, rfl⟩))
    have hmv : ∀ m, medianValue inds = .ok m → Flt.isNaN m = false := by
      intro m hm
      refine medianValue_noNaN hm hsam.inds_noNaN ?_
      rcases hmed with hi | hi
      · left; intro p hp hv
        obtain ⟨l, y, e⟩ := hval p hp
        refine hi l y (e ▸ val_inj_ne (hsam.inds_noNaN p hp) isNaN_inf ?_ ?_)
        · rw [hv, val_inf]
        · rw [hv]; simp
      · right; intro p hp hv
        obtain ⟨l, y, e⟩ := hval p hp
        refine hi l y (e ▸ val_inj_ne (hsam.inds_noNaN p hp) ?_ ?_ ?_)
        · rw [isNaN_neg, isNaN_inf]
        · rw [hv, val_neg, val_inf]; rfl
        · rw [hv]; simp
    unfold History.update at h2
    simp only [Outcome.bind_eq_ok, Outcome.ok.injEq] at h2
    obtain ⟨best, hb, med, hmd, h2⟩ := h2
    have hbest : best ∈ inds := by
      cases hz : inds[0]? with
      | none => simp [hz, Outcome.unwrap] at hb
      | some y =>
        simp only [hz, Outcome.unwrap_some, Outcome.ok.injEq] at hb
        exact hb ▸ List.mem_of_getElem? hz
    subst h2
    rcases hsub with hsub | hsub
    · rcases pushCapped_mem (hsub hx) with rfl | hx
      · simp [hsam.inds_noNaN best hbest] at hxn
      · simp [bestValues_noNaN hO x hx] at hxn
    · rcases pushCapped_mem (hsub hx) with rfl | hx
      · simp [hmv _ hmd] at hxn
      · simp [medianValues_noNaN hO hmed x hx] at hxn

section
variable {w w' : World n F} {obj obj' : Obj n F} {o : Options n F} {c0 : CMAES n F R}
  {kind : EvalKind} {t : List (NextCall n F)}

theorem runLoop (hmed : MirroredMedians env obj.f) (h0 : CMAES.new env w obj o = .ok c0)
    (fuel : Nat) {t : List (NextCall n F)} {c c' : CMAES n F R} (he : Exec env c0 t c)
    (h : FullMirror c c') :
    Outcome.Rel (fun a b => FullMirror a.1 b.1 ∧ b.2 = a.2.negated)
      (c.runLoop env kind fuel) (c'.runLoop env kind fuel) := by
  induction fuel generalizing t c c' with
  | zero => exact .diverge
  | succ fuel ih =>
    simp only [CMAES.runLoop]
    have hn := next (kind := kind) h (medianOk hmed h0 he)
    generalize hx : c.next env kind = x at hn
    generalize c'.next env kind = y at hn
    cases hn with
    | panic p => exact .panic p
    | diverge => exact .diverge
    | ok hab =>
      rename_i a b
      obtain ⟨a, r⟩ := a
      obtain ⟨b, r'⟩ := b
      obtain ⟨h1, h2⟩ := hab
      simp only at h1 h2
      subst h2
      simp only [Outcome.ok_bind]
      obtain ⟨calls, hl⟩ := next_log hx
      cases r with
      | none => exact ih (Exec.next he hx hl) h1
      | some d => exact .ok ⟨h1, rfl⟩

theorem run (hmed : MirroredMedians env obj.f) (h0 : CMAES.new env w obj o = .ok c0)
    (he : Exec env c0 t c) (h : FullMirror c c') :
    Outcome.Rel (fun a b => FullMirror a.1 b.1 ∧ b.2 = a.2.negated)
      (c.run env kind) (c'.run env kind) := by
  unfold CMAES.run
  refine Outcome.Rel.bind (runLoop hmed h0 _ he h) ?_
  rintro ⟨a, d⟩ ⟨b, d'⟩ ⟨h1, h2⟩
  simp only at h1 h2
  subst h2
  exact .ok ⟨h1.runInternal _ _ rfl, rfl⟩

theorem clearPlot (h : FullMirror c c') : Outcome.Rel FullMirror c.clearPlot c'.clearPlot := by
  unfold CMAES.clearPlot
  have hp := h.plot
  generalize c.plot = p at hp
  generalize c'.plot = p' at hp
  cases hp with
  | none => exact .ok h
  | some hp =>
    refine Outcome.Rel.bind hp.clear fun q q' hq => ?_
    exact .ok ⟨⟨h.sampler, h.state, h.mode, h.parameters, h.history, h.timeCreated, h.steps,
      h.clockReads⟩, .some hq, h.printGapEvals, h.lastPrintEvals⟩

theorem apply (hmed : MirroredMedians env obj.f) (h0 : CMAES.new env w obj o = .ok c0)
    (he : Exec env c0 t c) (op : Op) (h : FullMirror c c') :
    Outcome.Rel (fun a b => FullMirror a.1 b.1 ∧ b.2 = a.2.map TerminationData.negated)
      (c.apply env op) (c'.apply env op) := by
  cases op with
  | next k => exact next h (medianOk hmed h0 he)
  | run k =>
    refine Outcome.Rel.bind (run hmed h0 he h) ?_
    rintro ⟨a, d⟩ ⟨b, d'⟩ ⟨h1, h2⟩
    simp only at h1 h2
    subst h2
    exact .ok ⟨h1, rfl⟩
  | addPlotPoint => exact .ok ⟨h.addPlotPoint, rfl⟩
  | clearPlot =>
    refine Outcome.Rel.bind h.clearPlot ?_
    intro a b h1
    exact .ok ⟨h1, rfl⟩
  | printInitialInfo => exact .ok ⟨h.print _ _, rfl⟩
  | printInfo => exact .ok ⟨h.print _ _, rfl⟩
  | printFinalInfo l => exact .ok ⟨h.printFinalInfo l, rfl⟩
  | printRunInfo k => exact .ok ⟨h.print _ _, rfl⟩

theorem applyAll (hmed : MirroredMedians env obj.f) (h0 : CMAES.new env w obj o = .ok c0)
    (ops : List Op) {t : List (NextCall n F)} {c c' : CMAES n F R} (he : Exec env c0 t c)
    (h : FullMirror c c') :
    Outcome.Rel (fun a b => FullMirror a.1 b.1 ∧
        b.2 = a.2.map (Option.map TerminationData.negated))
      (c.applyAll env ops) (c'.applyAll env ops) := by
  induction ops generalizing t c c' with
  | nil => exact .ok ⟨h, rfl⟩
  | cons op ops ih =>
    simp only [CMAES.applyAll]
    have hr := apply hmed h0 he op h
    generalize hx : c.apply env op = x at hr
    generalize c'.apply env op = y at hr
    cases hr with
    | panic q => exact .panic q
    | diverge => exact .diverge
    | ok hab =>
      rename_i a b
      obtain ⟨a, r⟩ := a
      obtain ⟨b, r'⟩ := b
      obtain ⟨h1, h2⟩ := hab
      simp only at h1 h2
      subst h2
      obtain ⟨t', ht', _⟩ := apply_exec hx
      simp only [Outcome.ok_bind]
      refine Outcome.Rel.bind (ih (he.trans ht') h1) ?_
      rintro ⟨a', r⟩ ⟨b', r''⟩ ⟨h3, h4⟩
      simp only at h3 h4
      subst h4
      exact .ok ⟨h3, rfl⟩

/-- Freshly built. -/
theorem create (hmax : o.mode = .maximize)
    (hobj : Transformed (fun v => -v) obj.f obj'.f) (hlog : obj'.log = mapCalls (fun v => -v) obj.log)
    (hw : w'.steps = w.steps ∧ w'.clockReads = w.clockReads) :
    FullMirror (CMAES.create env w obj o) (CMAES.create env w' obj' o.mirrored) := by
  refine ⟨create_mirror hmax hobj hlog hw, ?_, ?_, ?_⟩
  · have hp : Option.Rel PlotLike (o.plotOptions.map fun po => (Plot.new po o.mode : Plot n F))
        (o.plotOptions.map fun po => (Plot.new po .minimize : Plot n F)) := by
      cases o.plotOptions with
      | none => exact .none
      | some po =>
        exact .some ⟨rfl, rfl, rfl, ⟨rfl, rfl, rfl, rfl, rfl, fun _ => rfl, fun _ => rfl,
          fun _ => rfl⟩⟩
    have hq : ∀ (w : World n F) (obj : Obj n F) (o : Options n F),
        (CMAES.create env w obj o).plot = (o.plotOptions.map fun po =>
          (Plot.new po o.mode : Plot n F)).map fun p =>
            p.addDataPoint 0 (State.new o.initialMean o.initialStepSize) History.new := by
      intro w obj o
      unfold CMAES.create
      cases o.printGapEvals <;> rfl
    rw [hq, hq]
    show Option.Rel PlotLike (Option.map _ (Option.map _ o.plotOptions))
      (Option.map _ (Option.map _ o.plotOptions))
    cases o.plotOptions with
    | none => exact .none
    | some po =>
      refine .some (PlotLike.addDataPoint ?_ _ _ _ _)
      exact ⟨rfl, rfl, rfl, ⟨rfl, rfl, rfl, rfl, rfl, fun _ => rfl, fun _ => rfl, fun _ => rfl⟩⟩
  · rw [(create_search env w obj o).2.2.2.2.1, (create_search env w' obj' o.mirrored).2.2.2.2.1]
    rfl
  · rw [(create_search env w obj o).2.2.2.2.2.2.2.2,
      (create_search env w' obj' o.mirrored).2.2.2.2.2.2.2.2]

end

end FullMirror

section
variable {env : Env n F R} {w w' : World n F} {obj obj' : Obj n F} {o : Options n F}
  {c0 c0' : CMAES n F R}

/-- **C13, all outcomes.** The same user calls on a `CMAES` that maximizes `obj` and on one that
minimizes the objective with negated values (with a negated target) have the same outcome: both
panic in the same way, or neither ends, or both return the same data up to the sign of the values,
after objective calls on the same points with negated values, with equal search state. -/
theorem c13_outcome (hmax : o.mode = .maximize)
    (hobj : Transformed (fun v => -v) obj.f obj'.f) (hlog : obj'.log = mapCalls (fun v => -v) obj.log)
    (hw : w'.steps = w.steps ∧ w'.clockReads = w.clockReads)
    (hmed : MirroredMedians env obj.f)
    (h0 : CMAES.new env w obj o = .ok c0) (h0' : CMAES.new env w' obj' o.mirrored = .ok c0')
    (ops : List Op) :
    Outcome.Rel (fun a b => b.2 = a.2.map (Option.map TerminationData.negated) ∧
        b.1.intoObjectiveFunction.log = mapCalls (fun v => -v) a.1.intoObjectiveFunction.log ∧
        b.1.mean = a.1.mean ∧ b.1.sigma = a.1.sigma ∧
        b.1.covarianceMatrix = a.1.covarianceMatrix ∧ b.1.generation = a.1.generation ∧
        b.1.functionEvals = a.1.functionEvals ∧
        b.1.currentBestIndividual = a.1.currentBestIndividual.map Individual.negated ∧
        b.1.overallBestIndividual = a.1.overallBestIndividual.map Individual.negated)
      (c0.applyAll env ops) (c0'.applyAll env ops) := by
  have e := (new_eq_ok h0).2
  have e' := (new_eq_ok h0').2
  have hs : FullMirror c0 c0' := by rw [e, e']; exact FullMirror.create hmax hobj hlog hw
  refine (FullMirror.applyAll hmed h0 ops (.refl _) hs).mono ?_
  rintro a b ⟨h1, h2⟩
  refine ⟨h2, h1.sampler.obj.log, ?_, ?_, ?_, ?_, h1.sampler.functionEvals, ?_, ?_⟩
  · unfold CMAES.mean; rw [h1.state]
  · unfold CMAES.sigma; rw [h1.state]
  · unfold CMAES.covarianceMatrix; rw [h1.state]
  · unfold CMAES.generation; rw [h1.state]
  · exact h1.history.currentBest
  · exact h1.history.overallBest

end

section Examples
open Witness

/-- C13: the hypotheses are met by a user who runs to the end, and by one whose call panics. -/
example : Transformed (fun v => -v) negSphere.f sphere.f ∧
    MirroredMedians (wenv 2) negSphere.f ∧
    ((CMAES.create (wenv 2) World.init negSphere
      { opts with mode := .maximize, funTarget := some (-3) }).applyAll (wenv 2)
      [.next .par, .printInfo, .run .seq, .next .seq]).check
        (fun x => x.2.map (fun d => d.map fun d => d.reasons) ==
          [none, none, some [.funTarget], some [.funTarget]]) = true ∧
    ((CMAES.create (wenv 2) World.init sphere
      (Options.mirrored { opts with mode := .maximize, funTarget := some (-3) })).applyAll (wenv 2)
      [.next .par, .printInfo, .run .seq, .next .seq]).check
        (fun x => x.2.map (fun d => d.map fun d => d.reasons) ==
          [none, none, some [.funTarget], some [.funTarget]]) = true := by
  refine ⟨fun l x => (flt_neg_neg _).symm, mirror_medians _, by decide +kernel, by decide +kernel⟩

/-- C13 covers numbers with two zeros, where the median of the negated values `-1, 1` is not the
negated median of `1, -1`: both are the positive zero. -/
example : letI : Libm S64 := ⟨id, id, id, fun x _ => x⟩
    medianValue [(⟨fun _ => 0, fun _ => 0, 1⟩ : EvaluatedPoint 1 S64), ⟨fun _ => 0, fun _ => 0, -1⟩] =
      .ok 0 ∧
    medianValue [(⟨fun _ => 0, fun _ => 0, -1⟩ : EvaluatedPoint 1 S64), ⟨fun _ => 0, fun _ => 0, 1⟩] =
      .ok 0 ∧ -(0 : S64) ≠ 0 := by
  refine ⟨?_, ?_, ?_⟩ <;> decide +kernel

end Examples

end Cmaes
