import Verif.Spec.PrintedResults
import Verif.Props.PrintText
import Verif.Props.RestartPrint

/-!
# C105: the printed results are the returned results
-/

namespace Cmaes
open Printed

section
variable [Libm F64] {n : Nat} {R : Type} {env : Env n F64 R} {kind : EvalKind} {obj : Obj n F64}
  {o : Options n F64} {t : List (NextCall n F64)} {c c' : CMAES n F64 R}

theorem joined_eq (sep : List Char) (l : List (List Char)) : joined sep l = List.intercalate sep l := by
  induction l with
  | nil => rfl
  | cons x l ih =>
    cases l with
    | nil => simp [joined]
    | cons y l => rw [joined, ih] <;> simp [List.intercalate]

theorem reasonsText_eq (l : List TerminationReason) :
    reasonsText l = ticked (l.map TerminationReason.name) := by
  unfold reasonsText ticked
  rw [joined_eq, List.map_map]
  rfl

theorem printedText_append (d : Display n) {xs ys : List (PrintEvent n F64)}
    {a b : List (List Char)} (ha : printedText d xs = .ok a) (hb : printedText d ys = .ok b) :
    printedText d (xs ++ ys) = .ok (a ++ b) := by
  induction xs generalizing a with
  | nil =>
    simp only [printedText, Outcome.ok.injEq] at ha
    subst ha
    exact hb
  | cons x xs ih =>
    simp only [printedText, Outcome.bind_eq_ok, Outcome.ok.injEq] at ha
    obtain ⟨l, hl, m, hm, rfl⟩ := ha
    simp [printedText, hl, ih hm]

/-- **C73, rows.** `print_info`, called at any moment, leaves what was printed before and adds one row of
seven cells. They show what the accessors return at that moment: `generation()`, `function_evals()`, the
value of `current_best_individual()` with twelve decimals, and with four `axis_ratio()`, `sigma()` and
the smallest and the largest standard deviation of a coordinate, that is `sigma()` times the square root
of the smallest and largest diagonal entry of `covariance_matrix()`. -/
theorem c73_printInfo (d : Display n) (c : CMAES n F64 R) :
    ∃ before row c0 c1 c2 c3 c4 c5 c6, printedText d c.world.out = .ok before ∧
      printedText d c.printInfo.world.out = .ok (before ++ [row]) ∧
      row.splitOn '|' = [c0, c1, c2, c3, c4, c5, c6] ∧
      ShowsCount c0 c.generation ∧ ShowsCount c1 c.functionEvals ∧
      ShowsOptional 12 c2 (c.currentBestIndividual.map fun b => b.value) ∧
      ShowsNumber 4 c3 c.axisRatio ∧ ShowsNumber 4 c4 c.sigma ∧
      ShowsNumber 4 c5 (c.sigma * Flt.sqrt (Mat.diag c.covarianceMatrix).min) ∧
      ShowsNumber 4 c6 (c.sigma * Flt.sqrt (Mat.diag c.covarianceMatrix).max) := by
  obtain ⟨before, hb⟩ := c73_returns d c.world.out
  obtain ⟨row, c0, c1, c2, c3, c4, c5, c6, h, hrest⟩ := c73_row c.state.generation
    c.sampler.functionEvals (c.history.currentBest.map fun x => x.value) c.state.axisRatio
    c.state.sigma (c.state.sigma * Flt.sqrt c.state.cov.cov.diag.min)
    (c.state.sigma * Flt.sqrt c.state.cov.cov.diag.max)
  refine ⟨before, row, c0, c1, c2, c3, c4, c5, c6, hb, printedText_append d hb ?_, hrest⟩
  simp [printedText, PrintEvent.text, h, CMAES.infoRow]

/-- **C73, heading.** `print_initial_info`, called at any moment, leaves what was printed before and adds
three lines: the variant with dimension, population size and seed, and the heading of the table. -/
theorem c73_printInitial (d : Display n) (c : CMAES n F64 R) :
    ∃ before v a b s rule, printedText d c.world.out = .ok before ∧
      printedText d c.printInitialInfo.world.out = .ok (before ++
        [v ++ " with dimension=".toList ++ a ++ ", lambda=".toList ++ b ++ ", seed=".toList ++ s,
          titleString, rule]) ∧
      v = (if c.parameters.setting = .negative then "aCMA-ES".toList else "CMA-ES".toList) ∧
      ShowsCount a c.parameters.dim ∧ ShowsCount b c.parameters.lambda ∧
      ShowsCount s c.parameters.seed := by
  obtain ⟨before, hb⟩ := c73_returns d c.world.out
  refine ⟨before, _, _, _, _, _, hb, printedText_append d hb (b := initialText c.parameters.setting
    c.parameters.dim c.parameters.lambda c.parameters.seed) ?_, ?_, natText_count _,
    natText_count _, natText_count _⟩
  · simp [printedText, PrintEvent.text]
  · cases c.parameters.setting <;> rfl

/-- **C105, run.** If printing is enabled, the text printed until `run` returned ends with the lines
that announce what it returned: its reasons, the best values and the final mean. -/
theorem c105_run (d : Display n) (h : History.Of env obj o t c) (hg : o.printGapEvals ≠ none)
    {data : TerminationData n F64} (hr : c.run env kind = .ok (c', data)) :
    ∃ before, printedText d c'.world.out = .ok (before ++ runAnnounced d data) := by
  obtain ⟨e, he, hf⟩ := c46_print h hg hr
  obtain ⟨u, s, c1, h1, h2, h3, h4, rfl⟩ := run_ok_internal hr
  obtain ⟨d1, d2, d3⟩ := h1.last_result h3
  have ss := sameSearch_runInternal c1 data
  obtain ⟨pre, hpre⟩ := List.getLast?_eq_some_iff.mp he
  obtain ⟨before, hb⟩ := c73_returns d pre
  refine ⟨before, ?_⟩
  rw [hpre]
  refine printedText_append d hb ?_
  unfold PrintEvent.IsFinalOf at hf
  rw [hf]
  simp only [CMAES.currentBestIndividual, CMAES.overallBestIndividual, CMAES.mean, ss.history,
    ss.state] at *
  unfold runAnnounced
  rw [d1, d2, d3]
  cases c1.history.currentBest with
  | none => simp [printedText, PrintEvent.text, finalText, reasonsText_eq]
  | some a =>
    cases c1.history.overallBest with
    | none => simp [printedText, PrintEvent.text, finalText, reasonsText_eq]
    | some b => simp [printedText, PrintEvent.text, finalText, reasonsText_eq]

theorem restartInitial_line (d : Display n) (o : RestartOptions n F64) (seed : Nat) :
    SettingsLine d o seed (restartInitialText d o.strategy.printedName n o.searchStart o.searchEnd
      o.strategy.printedParameters seed) := by
  cases hs : o.strategy with
  | «local» x =>
    refine ⟨_, _, [], natText_count n, natText_count seed, ?_⟩
    rw [hs]
    simp [restartInitialText, Strategy.printedName, Strategy.printedParameters, parametersText,
      joined]
  | ipop x =>
    refine ⟨_, _, natText x.increaseFactor, natText_count n, natText_count seed, ?_⟩
    rw [hs]
    refine ⟨natText_count _, ?_⟩
    simp [restartInitialText, Strategy.printedName, Strategy.printedParameters, parametersText,
      joined]
  | bipop x =>
    refine ⟨_, _, natText x.ipopIncreaseFactor, natText_count n, natText_count seed, ?_⟩
    rw [hs]
    refine ⟨natText_count _, ?_⟩
    simp [restartInitialText, Strategy.printedName, Strategy.printedParameters, parametersText,
      joined]

theorem restartResults_lines (d : Display n) (res : RestartResults n F64) :
    ResultsLines d res (restartResultsText d res.functionEvals res.reason res.best) := by
  refine ⟨_, natText_count _, ?_⟩
  unfold restartResultsText
  cases res.best <;> simp

/-- **C105, restarts.** With printing enabled, the first line a restarter prints announces its
settings, and the last ones announce the results it returns. -/
theorem c105_restart (d : Display n) {o : RestartOptions n F64} {r : Restarter n F64 R}
    {src : ObjSource n F64} {reuse : Bool} {res : RestartResults n F64} {s : RestartState n F64 R}
    (hnew : Restarter.new env o = .ok r)
    (h : r.runInternal env kind src reuse = .ok (res, s)) (hp : o.enablePrinting = true) :
    ∃ first middle last, printedText d s.world.out = .ok (first :: middle ++ last) ∧
      SettingsLine d o (o.seed.getD env.randomSeed) first ∧ ResultsLines d res last := by
  obtain ⟨blocks, h1, -, -⟩ := c72_output hnew h
  rw [h1, if_pos hp, if_pos hp]
  obtain ⟨middle, hm⟩ := c73_returns d blocks.flatten
  refine ⟨_, middle, _, printedText_append d (printedText_append d (a := [_]) ?_ hm) ?_,
    restartInitial_line d o _, restartResults_lines d res⟩
  · simp only [printedText, PrintEvent.text, Outcome.ok_bind]
    rfl
  · simp [printedText, PrintEvent.text]

theorem runLines_text (d : Display n) (i : Nat) (x : RunRecord n F64 R)
    (hx : x.data.overallBest = x.final.overallBestIndividual) :
    ∃ a b, printedText d [.runInfo i x.options.populationSize x.options.initialStepSize
        (x.options.seed.getD 0), .runResults i (x.final.overallBestIndividual.map fun b => b.value)
          x.data.reasons x.evals] = .ok [a, b] ∧ RunLines i x a b := by
  obtain ⟨a, l, v, sd, e, a1, a2, a3, a4⟩ := c73_runInfo i x.options.populationSize
    x.options.initialStepSize (x.options.seed.getD 0)
  obtain ⟨b, best, k, e', b1, b2, b3, b4⟩ := c73_runResults i
    (x.final.overallBestIndividual.map fun b => b.value) x.data.reasons x.evals
  refine ⟨_, _, ?_, a, l, v, sd, b, best, k, rfl, a1, a2, a3, a4, rfl, b1, b2, ?_⟩
  · simp only [printedText, PrintEvent.text, e, e', Outcome.ok_bind, reasonsText_eq]
    rfl
  · rw [hx]
    cases hb : x.final.overallBestIndividual with
    | none => exact b3 (by rw [hb]; rfl)
    | some y => exact b4 _ (by rw [hb]; rfl)

/-- **C105, lines.** If a restarter prints and its runs do not, then the whole text is a line with
the settings, two lines for each run, which are numbered from one and announce the configuration and
the results of that run, and the lines with the returned results. -/
theorem c105_lines (d : Display n) {o : RestartOptions n F64} {r : Restarter n F64 R}
    {src : ObjSource n F64} {reuse : Bool} {res : RestartResults n F64} {s : RestartState n F64 R}
    (hnew : Restarter.new env o = .ok r)
    (h : r.runInternal env kind src reuse = .ok (res, s)) (hp : o.enablePrinting = true)
    (hg : o.defaultOptions.printGapEvals = none) :
    ∃ first middle last, printedText d s.world.out = .ok (first :: middle ++ last) ∧
      SettingsLine d o (o.seed.getD env.randomSeed) first ∧ ResultsLines d res last ∧
      middle.length = 2 * res.runs ∧
      ∀ (i : Nat) (x : RunRecord n F64 R), s.records[i]? = some x →
        ∃ a b, middle[2 * i]? = some a ∧ middle[2 * i + 1]? = some b ∧ RunLines (i + 1) x a b := by
  have h1 := c72_lines hnew h hg
  rw [if_pos hp] at h1
  have hreal : ∀ x ∈ s.records, x.data.overallBest = x.final.overallBestIndividual := by
    intro x hx
    obtain ⟨t, l, hh, hd, -, -⟩ := ((c50_totals h).2.2 x hx).history
    obtain ⟨w, c0, -, he⟩ := hh
    exact (he.last_result hd).2.1
  have key : ∀ (xs : List (RunRecord n F64 R)) (k : Nat),
      (∀ x ∈ xs, x.data.overallBest = x.final.overallBestIndividual) →
      ∃ middle, printedText d ((xs.zipIdx k).flatMap fun p =>
          [.runInfo p.2 p.1.options.populationSize p.1.options.initialStepSize
            (p.1.options.seed.getD 0),
           .runResults p.2 (p.1.final.overallBestIndividual.map fun b => b.value)
            p.1.data.reasons p.1.evals]) = .ok middle ∧ middle.length = 2 * xs.length ∧
        ∀ (i : Nat) (x : RunRecord n F64 R), xs[i]? = some x →
        ∃ a b, middle[2 * i]? = some a ∧ middle[2 * i + 1]? = some b ∧ RunLines (i + k) x a b := by
    intro xs
    induction xs with
    | nil => intro k _; exact ⟨[], rfl, rfl, by simp⟩
    | cons y ys ih =>
      intro k hxs
      obtain ⟨m, m1, m2, m3⟩ := ih (k + 1) fun x hx => hxs x (List.mem_cons_of_mem _ hx)
      obtain ⟨a, b, e, hab⟩ := runLines_text d k y (hxs y (by simp))
      refine ⟨[a, b] ++ m, ?_, by simp [m2]; omega, ?_⟩
      · rw [List.zipIdx_cons, List.flatMap_cons]
        exact printedText_append d e m1
      · intro i x hx
        cases i with
        | zero =>
          simp only [List.getElem?_cons_zero, Option.some.injEq] at hx
          subst hx
          exact ⟨a, b, rfl, rfl, by simpa using hab⟩
        | succ i =>
          simp only [List.getElem?_cons_succ] at hx
          obtain ⟨a', b', e1, e2, e3⟩ := m3 i x hx
          refine ⟨a', b', ?_, ?_, by rw [show i + 1 + k = i + (k + 1) by omega]; exact e3⟩
          · rw [show 2 * (i + 1) = 2 * i + 2 by omega]; simpa using e1
          · rw [show 2 * (i + 1) + 1 = 2 * i + 1 + 2 by omega]; simpa using e2
  obtain ⟨m, m1, m2, m3⟩ := key s.records 1 hreal
  rw [h1]
  refine ⟨_, m, _, printedText_append d (printedText_append d (a := [_]) ?_ m1) ?_,
    restartInitial_line d o _, restartResults_lines d res, ?_, m3⟩
  · simp only [printedText, PrintEvent.text, Outcome.ok_bind]
    rfl
  · simp [printedText, PrintEvent.text]
  · rw [m2, (c50_totals h).1]

end

/-! ### Concrete cases -/

open Witness in
/-- The hypotheses of `c105_run` are met by a run that stops after two generations. -/
example : ∃ c c' data, History.Of (wenv 2) sphere
      { opts with maxGenerations := some 2, printGapEvals := some 200 } [] c ∧
    c.run (wenv 2) .seq = .ok (c', data) ∧ data.reasons = [.maxGenerations] ∧
    data.currentBest ≠ none ∧ data.overallBest ≠ none := by
  obtain ⟨⟨c', data⟩, h1, h2⟩ := Outcome.of_check (x := (CMAES.create (wenv 2) World.init sphere
      { opts with maxGenerations := some 2, printGapEvals := some 200 }).run (wenv 2) .seq)
    (p := fun x => decide (x.2.reasons = [.maxGenerations] ∧
      x.2.currentBest.isSome ∧ x.2.overallBest.isSome)) (by decide +kernel)
  obtain ⟨a, b, e⟩ := of_decide_eq_true h2
  refine ⟨_, c', data, ⟨World.init, CMAES.create (wenv 2) World.init sphere _, ?_, .refl _⟩, h1, a,
    Option.isSome_iff_ne_none.mp b, Option.isSome_iff_ne_none.mp e⟩
  have hv : CMAES.validate { opts with maxGenerations := some 2, printGapEvals := some 200 } =
      none := by decide +kernel
  simp only [CMAES.new, hv]

open Witness in
/-- The hypotheses of `c105_restart` and `c105_lines` are met by three runs. -/
example : ∃ r res s, Restarter.new (wenv 2)
      { restartOpts (localStrategy 3) with enablePrinting := true } = .ok r ∧
    r.runInternal (wenv 2) .seq (.once (some sphere)) true = .ok (res, s) ∧
    res.runs = 3 ∧ res.best ≠ none ∧
    (restartOpts (localStrategy 3)).defaultOptions.printGapEvals = none := by
  obtain ⟨r, res, s, h0, h, hp⟩ := of_tryRestart (env := wenv 2) (kind := .seq)
    (src := .once (some sphere)) (reuse := true)
    (o := { restartOpts (localStrategy 3) with enablePrinting := true })
    (p := fun res s => decide (res.runs = 3 ∧ res.best.isSome))
    (by decide +kernel)
  have := of_decide_eq_true hp
  exact ⟨r, res, s, h0, h, this.1, Option.isSome_iff_ne_none.mp this.2, rfl⟩

/-- The list of reasons as it is printed. -/
example : ticked ([TerminationReason.tolFun, .tolX].map TerminationReason.name) =
    "`TolFun`, `TolX`".toList := by decide

end Cmaes
