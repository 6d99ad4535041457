import Verif.Lemmas.SearchSim
import Verif.Lemmas.Exec
import Verif.Spec.Reproduce

/-!
# Two runs that differ in the time and in the output only
-/

set_option linter.unusedSectionVars false

namespace Cmaes
variable {n : Nat} {F R : Type} [Flt F]

/-- `c'` differs from `c` at most in the time of creation and in the output. -/
structure Twin (sameTime sameOut : Prop) (c c' : CMAES n F R) : Prop where
  sampler : c'.sampler = c.sampler
  parameters : c'.parameters = c.parameters
  state : c'.state = c.state
  history : c'.history = c.history
  plot : c'.plot = c.plot
  printGapEvals : c'.printGapEvals = c.printGapEvals
  lastPrintEvals : c'.lastPrintEvals = c.lastPrintEvals
  steps : c'.world.steps = c.world.steps
  clockReads : c'.world.clockReads = c.world.clockReads
  time : sameTime → c'.timeCreated = c.timeCreated
  out : sameOut → c'.world.out = c.world.out

/-- What the two environments have to agree on, for a `CMAES` with the given parameters. -/
structure TwinEnv (sameTime : Prop) (env env' : Env n F R) (p : Parameters F) : Prop where
  rng : env'.rng = env.rng
  eigen : env'.eigen = env.eigen
  medianNaN : env'.medianNaN = env.medianNaN
  resampleFuel : env'.resampleFuel = env.resampleFuel
  runFuel : env'.runFuel = env.runFuel
  tree : p.parallelUpdate = false ∨ env'.redTree = env.redTree
  clock : p.termination.maxTime = none ∨ sameTime ∧ env'.clock = env.clock

variable {sameTime sameOut : Prop}

namespace Twin
variable {c c' : CMAES n F R}

theorem refl (c : CMAES n F R) : Twin sameTime sameOut c c :=
  ⟨rfl, rfl, rfl, rfl, rfl, rfl, rfl, rfl, rfl, fun _ => rfl, fun _ => rfl⟩

theorem print (h : Twin sameTime sameOut c c') (e : PrintEvent n F) :
    Twin sameTime sameOut (c.print e) (c'.print e) :=
  ⟨h.1, h.2, h.3, h.4, h.5, h.6, h.7, h.8, h.9, h.10, fun hs => by
    simp [CMAES.print, World.print, h.out hs]⟩

theorem addPlotPoint (h : Twin sameTime sameOut c c') :
    Twin sameTime sameOut c.addPlotPoint c'.addPlotPoint := by
  refine ⟨h.1, h.2, h.3, h.4, ?_, h.6, h.7, h.8, h.9, h.10, h.11⟩
  simp [CMAES.addPlotPoint, h.plot, h.sampler, h.state, h.history]

theorem infoRow (h : Twin sameTime sameOut c c') : c'.infoRow = c.infoRow := by
  simp [CMAES.infoRow, h.sampler, h.state, h.history]

theorem printInfo (h : Twin sameTime sameOut c c') :
    Twin sameTime sameOut c.printInfo c'.printInfo := by
  unfold CMAES.printInfo
  rw [h.infoRow]; exact h.print _

theorem terminationData (h : Twin sameTime sameOut c c') (l : List TerminationReason) :
    c'.terminationData l = c.terminationData l := by
  simp [CMAES.terminationData, h.history, h.state]

theorem printFinalInfo (h : Twin sameTime sameOut c c') (l : List TerminationReason) :
    Twin sameTime sameOut (c.printFinalInfo l) (c'.printFinalInfo l) := by
  unfold CMAES.printFinalInfo
  rw [h.sampler, h.lastPrintEvals]
  by_cases hne : c.sampler.functionEvals ≠ c.lastPrintEvals
  · simp only [if_pos hne]
    have := h.printInfo
    rw [this.history, this.state]
    exact this.print _
  · simp only [if_neg hne, h.history, h.state]
    exact h.print _

theorem runInternal (h : Twin sameTime sameOut c c') (d : TerminationData n F) :
    Twin sameTime sameOut (c.runInternal d) (c'.runInternal d) := by
  unfold CMAES.runInternal
  have := h.addPlotPoint
  simp only [this.printGapEvals]
  split
  · exact this.printFinalInfo _
  · exact this

theorem autoPlot (h : Twin sameTime sameOut c c') :
    Outcome.Rel (Twin sameTime sameOut) c.autoPlot c'.autoPlot := by
  unfold CMAES.autoPlot
  rw [h.plot]
  cases c.plot with
  | none => exact .ok h
  | some p =>
    simp only [h.state, h.sampler]
    by_cases hg : c.state.generation ≤ 1
    · simp only [hg, ↓reduceIte]; exact .ok h.addPlotPoint
    · simp only [hg, ↓reduceIte]
      refine Outcome.Rel.bind (Outcome.Rel.of_eq rfl) ?_
      rintro a _ rfl
      by_cases ha : a ≤ c.sampler.functionEvals
      · simp only [ha, ↓reduceIte]; exact .ok h.addPlotPoint
      · simp only [ha, ↓reduceIte]; exact .ok h

theorem autoPrint (h : Twin sameTime sameOut c c') :
    Outcome.Rel (Twin sameTime sameOut) c.autoPrint c'.autoPrint := by
  unfold CMAES.autoPrint
  rw [h.printGapEvals]
  cases c.printGapEvals with
  | none => exact .ok h
  | some g =>
    simp only [h.state, h.sampler, h.lastPrintEvals]
    refine Outcome.Rel.bind (Outcome.Rel.of_eq rfl) ?_
    rintro a _ rfl
    refine .ok ?_
    by_cases ha : a ≤ c.sampler.functionEvals
    · simp only [ha, ↓reduceIte]
      have := h.printInfo
      exact ⟨this.1, this.2, this.3, this.4, this.5, this.6, rfl, this.8, this.9, this.10,
        this.11⟩
    · simp only [ha, ↓reduceIte]
      by_cases hg : c.state.generation < 4
      · simp only [hg, ↓reduceIte]; exact h.printInfo
      · simp only [hg, ↓reduceIte]; exact h

variable {env env' : Env n F R}

theorem checkTermination (he : TwinEnv sameTime env env' c.parameters)
    (h : Twin sameTime sameOut c c') (inds : List (EvaluatedPoint n F)) :
    Outcome.Rel (fun a b => Twin sameTime sameOut a.1 b.1 ∧ b.2 = a.2)
      (c.checkTermination env inds) (c'.checkTermination env' inds) := by
  unfold CMAES.checkTermination
  have fin : ∀ {d d' : CMAES n F R} (el : Nat), Twin sameTime sameOut d d' →
      Outcome.Rel (fun a b => Twin sameTime sameOut a.1 b.1 ∧ b.2 = a.2)
        (do
          let reasons ← ({ evals := d.sampler.functionEvals, elapsed := el
                           parameters := d.parameters, state := d.state, history := d.history
                           individuals := inds } : TerminationCheck n F).check env.medianNaN
          .ok (d, if reasons.isEmpty then none else some (d.terminationData reasons)))
        (do
          let reasons ← ({ evals := d'.sampler.functionEvals, elapsed := el
                           parameters := d'.parameters, state := d'.state, history := d'.history
                           individuals := inds } : TerminationCheck n F).check env'.medianNaN
          .ok (d', if reasons.isEmpty then none else some (d'.terminationData reasons))) := by
    intro d d' el hd
    rw [hd.sampler, hd.parameters, hd.state, hd.history, he.medianNaN]
    refine Outcome.Rel.bind (Outcome.Rel.of_eq rfl) ?_
    rintro a _ rfl
    refine .ok ⟨hd, ?_⟩
    simp only [hd.terminationData]
  have hp : c'.parameters.termination.maxTime = c.parameters.termination.maxTime := by
    rw [h.parameters]
  cases hm : c.parameters.termination.maxTime with
  | none =>
    simp only [hp, hm, Option.isSome_none, Bool.false_eq_true, if_false, Nat.sub_self]
    exact fin 0 h
  | some m =>
    rcases he.clock with hc | ⟨hst, hc⟩
    · rw [hm] at hc; cases hc
    simp only [hp, hm, Option.isSome_some, if_true, World.now, hc, h.clockReads, h.time hst]
    have h1 : Twin sameTime sameOut
        { c with world := { c.world with clockReads := c.world.clockReads + 1 } }
        { c' with world := { c'.world with clockReads := c.world.clockReads + 1 } } :=
      ⟨h.1, h.2, h.3, h.4, h.5, h.6, h.7, h.8, rfl, h.10, h.11⟩
    have h2 := fin (env.clock c.world.clockReads - c.timeCreated) h1
    simp only [h.time hst] at h2
    exact h2

theorem update_tree {eigen : Mat n F → Option (Mat n F × Vec n F)} {tree tree' : SplitTree}
    {evals : Nat} {p : Parameters F} {inds : List (EvaluatedPoint n F)} {s : State n F}
    (h : p.parallelUpdate = false) :
    s.update eigen tree' evals p inds = s.update eigen tree evals p inds := by
  unfold State.update rankMuUpdate
  simp [h]

theorem nextInternal (he : TwinEnv sameTime env env' c.parameters)
    (h : Twin sameTime sameOut c c') (k : Nat) (inds : List (EvaluatedPoint n F)) :
    Outcome.Rel (fun a b => Twin sameTime sameOut a.1 b.1 ∧ b.2 = a.2)
      (c.nextInternal env (env.redTree k) inds) (c'.nextInternal env' (env'.redTree k) inds) := by
  unfold CMAES.nextInternal
  have hu : c'.state.update env'.eigen (env'.redTree k) c'.sampler.functionEvals c'.parameters inds =
      c.state.update env.eigen (env.redTree k) c.sampler.functionEvals c.parameters inds := by
    rw [h.state, h.sampler, h.parameters, he.eigen]
    rcases he.tree with ht | ht
    · exact update_tree ht
    · rw [ht]
  rw [hu]
  refine Outcome.Rel.bind (Outcome.Rel.of_eq rfl) ?_
  rintro ⟨st, b⟩ _ rfl
  have h1 : Twin sameTime sameOut { c with state := st } { c' with state := st } :=
    ⟨h.1, h.2, rfl, h.4, h.5, h.6, h.7, h.8, h.9, h.10, h.11⟩
  cases b with
  | false => exact .ok ⟨h1, by rw [← h1.terminationData]⟩
  | true =>
    simp only [if_true]
    cases hp : ({ c with state := st } : CMAES n F R).autoPlot with
    | panic p =>
      have := h1.autoPlot
      rw [hp] at this
      generalize hp' : ({ c' with state := st } : CMAES n F R).autoPlot = x at this
      cases this
      exact .panic p
    | diverge =>
      have := h1.autoPlot
      rw [hp] at this
      generalize hp' : ({ c' with state := st } : CMAES n F R).autoPlot = x at this
      cases this
      exact .diverge
    | ok c1 =>
      have := h1.autoPlot
      rw [hp] at this
      obtain ⟨c1', hp', h2⟩ := this.ok_left
      rw [hp']
      simp only [Outcome.ok_bind]
      have e1 : c1.parameters = c.parameters := (sameSearch_autoPlot hp).parameters
      cases hq : c1.autoPrint with
      | panic p =>
        have := h2.autoPrint
        rw [hq] at this
        generalize hq' : c1'.autoPrint = x at this
        cases this
        exact .panic p
      | diverge =>
        have := h2.autoPrint
        rw [hq] at this
        generalize hq' : c1'.autoPrint = x at this
        cases this
        exact .diverge
      | ok c2 =>
        have := h2.autoPrint
        rw [hq] at this
        obtain ⟨c2', hq', h3⟩ := this.ok_left
        rw [hq']
        simp only [Outcome.ok_bind]
        have e2 : c2.parameters = c.parameters :=
          (sameSearch_autoPrint hq).parameters.trans e1
        exact checkTermination (by rw [e2]; exact he) h3 inds

theorem sample {kind : EvalKind} {sd sd' : Sched} {T : Mat n F} {mean : Vec n F} {sigma : F}
    {mode : Mode} {s : Sampler n F R} {p : Parameters F} (he : TwinEnv sameTime env env' p)
    (hk : kind = .seq ∨ sd' = sd) :
    s.sample env' kind sd' T mean sigma mode = s.sample env kind sd T mean sigma mode := by
  unfold Sampler.sample
  rw [he.rng, he.resampleFuel]
  rcases hk with rfl | rfl
  · rfl
  · rfl

theorem next {kind : EvalKind} (he : TwinEnv sameTime env env' c.parameters)
    (hk : kind = .seq ∨ env'.sched = env.sched) (h : Twin sameTime sameOut c c') :
    Outcome.Rel (fun a b => Twin sameTime sameOut a.1 b.1 ∧ b.2 = a.2)
      (c.next env kind) (c'.next env' kind) := by
  unfold CMAES.next
  rw [h.sampler, h.state, h.parameters, h.steps]
  refine Outcome.Rel.bind (Outcome.Rel.of_eq (sample he (sd := env.sched c.world.steps)
    (hk.imp id fun e => by rw [e])).symm) ?_
  rintro ⟨res, s⟩ _ rfl
  cases res with
  | none =>
    refine .ok ⟨⟨rfl, rfl, rfl, h.4, h.5, h.6, h.7, rfl, h.9, h.10, h.11⟩, ?_⟩
    simp only [CMAES.terminationData, h.history]
  | some inds =>
    simp only [h.history]
    refine Outcome.Rel.bind (Outcome.Rel.of_eq rfl) ?_
    rintro hist _ rfl
    refine nextInternal ?_ ?_ _ inds
    · exact he
    · exact ⟨rfl, rfl, rfl, rfl, h.5, h.6, h.7, rfl, h.9, h.10, h.11⟩

theorem runLoop {kind : EvalKind} (hk : kind = .seq ∨ env'.sched = env.sched) (fuel : Nat)
    {c c' : CMAES n F R} (he : TwinEnv sameTime env env' c.parameters)
    (h : Twin sameTime sameOut c c') :
    Outcome.Rel (fun a b => Twin sameTime sameOut a.1 b.1 ∧ b.2 = a.2)
      (c.runLoop env kind fuel) (c'.runLoop env' kind fuel) := by
  induction fuel generalizing c c' with
  | zero => exact .diverge
  | succ fuel ih =>
    simp only [CMAES.runLoop]
    have hn := next he hk h
    cases hx : c.next env kind with
    | panic p => rw [hx] at hn; generalize c'.next env' kind = y at *; cases hn; exact .panic p
    | diverge => rw [hx] at hn; generalize c'.next env' kind = y at *; cases hn; exact .diverge
    | ok a =>
      obtain ⟨a, r⟩ := a
      rw [hx] at hn
      obtain ⟨⟨b, r'⟩, hy, h1, h2⟩ := hn.ok_left
      simp only at h1 h2
      subst h2
      rw [hy]
      simp only [Outcome.ok_bind]
      obtain ⟨_, _, hp, _⟩ := next_core hx
      cases r' with
      | none => exact ih (by rw [hp]; exact he) h1
      | some d => exact .ok ⟨h1, rfl⟩

theorem run {kind : EvalKind} (he : TwinEnv sameTime env env' c.parameters)
    (hk : kind = .seq ∨ env'.sched = env.sched) (h : Twin sameTime sameOut c c') :
    Outcome.Rel (fun a b => Twin sameTime sameOut a.1 b.1 ∧ b.2 = a.2)
      (c.run env kind) (c'.run env' kind) := by
  unfold CMAES.run
  rw [he.runFuel]
  refine Outcome.Rel.bind (runLoop hk _ he h) ?_
  rintro ⟨a, d⟩ ⟨b, d'⟩ ⟨h1, h2⟩
  simp only at h1 h2
  subst h2
  exact .ok ⟨h1.runInternal _, rfl⟩

theorem clearPlot (h : Twin sameTime sameOut c c') :
    Outcome.Rel (Twin sameTime sameOut) c.clearPlot c'.clearPlot := by
  unfold CMAES.clearPlot
  rw [h.plot]
  cases c.plot with
  | none => exact .ok h
  | some p =>
    simp only
    refine Outcome.Rel.bind (Outcome.Rel.of_eq rfl) ?_
    rintro q _ rfl
    exact .ok ⟨h.1, h.2, h.3, h.4, rfl, h.6, h.7, h.8, h.9, h.10, h.11⟩

theorem apply {op : Op} (he : TwinEnv sameTime env env' c.parameters)
    (hk : op.sequential = op ∨ env'.sched = env.sched) (h : Twin sameTime sameOut c c') :
    Outcome.Rel (fun a b => Twin sameTime sameOut a.1 b.1 ∧ b.2 = a.2)
      (c.apply env op) (c'.apply env' op) := by
  cases op with
  | next k =>
    exact next he (hk.imp (fun e => by simpa [Op.sequential, eq_comm] using e) id) h
  | run k =>
    refine Outcome.Rel.bind
      (run he (hk.imp (fun e => by simpa [Op.sequential, eq_comm] using e) id) h) ?_
    rintro ⟨a, d⟩ ⟨b, d'⟩ ⟨h1, h2⟩
    simp only at h1 h2
    subst h2
    exact .ok ⟨h1, rfl⟩
  | addPlotPoint => exact .ok ⟨h.addPlotPoint, rfl⟩
  | clearPlot =>
    refine Outcome.Rel.bind h.clearPlot ?_
    intro a b h1
    exact .ok ⟨h1, rfl⟩
  | printInitialInfo =>
    refine .ok ⟨?_, rfl⟩
    simp only [CMAES.printInitialInfo, h.parameters]
    exact h.print _
  | printInfo => exact .ok ⟨h.printInfo, rfl⟩
  | printFinalInfo l => exact .ok ⟨h.printFinalInfo l, rfl⟩
  | printRunInfo k =>
    refine .ok ⟨?_, rfl⟩
    simp only [CMAES.printRunInfo, h.parameters]
    exact h.print _

end Twin

end Cmaes
