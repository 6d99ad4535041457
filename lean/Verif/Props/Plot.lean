import Verif.Lemmas.Plot
import Verif.Witness

/-!
# C43 to C46: the recorded plot data
-/

set_option linter.unusedSectionVars false

namespace Cmaes
variable {n : Nat} {F R : Type} [Flt F] [FltLaws F] {env : Env n F R} {obj : Obj n F}
  {o : Options n F} {t : List (NextCall n F)} {c c' : CMAES n F R}

/-! ### C43 -/

/-- **C43.** There is a plot exactly if it was enabled, it is never empty, and all its series have
the same length. -/
theorem c43_aligned (h : History.Of env obj o t c) :
    (c.plot = none ↔ o.plotOptions = none) ∧
    ∀ p, c.plot = some p → 0 < p.data.len ∧ p.data.Aligned p.data.len := by
  obtain ⟨h1, h2⟩ := plot_inv h
  exact ⟨h1, fun p hp => ⟨(h2 p hp).nonempty, (h2 p hp).aligned⟩⟩

/-- **C43.** Clearing the plot never panics. -/
theorem c43_clear (h : History.Of env obj o t c) : ∃ c', c.apply env .clearPlot = .ok (c', none) := by
  cases hp : c.plot with
  | none => exact ⟨c, by simp [CMAES.apply, CMAES.clearPlot, hp]⟩
  | some p =>
    obtain ⟨p', h1, _⟩ := ((plot_inv h).2 p hp).clear
    exact ⟨{ c with plot := some p' }, by simp [CMAES.apply, CMAES.clearPlot, hp, h1]⟩

/-! ### C44 -/

/-- **C44.** The recorded evaluation counts increase strictly, and none exceeds the current one. -/
theorem c44_increasing (h : History.Of env obj o t c) {p : Plot n F} (hp : c.plot = some p) :
    p.data.functionEvals.Pairwise (· < ·) ∧ ∀ e ∈ p.data.functionEvals, e ≤ c.functionEvals := by
  have i := (plot_inv h).2 p hp
  refine ⟨i.increasing, ?_⟩
  obtain ⟨g, e, -, h2, -, h4, -⟩ := i.last
  intro x hx
  refine le_trans ?_ h4
  have hne : p.data.functionEvals ≠ [] := by rintro hh; simp [hh] at hx
  rw [List.getLast?_eq_some_getLast hne, Option.some.injEq, List.getLast_eq_getElem] at h2
  rcases List.mem_iff_getElem.mp hx with ⟨k, hk, rfl⟩
  by_cases hl : k = p.data.functionEvals.length - 1
  · subst hl; exact h2.le
  · have := List.pairwise_iff_getElem.mp i.increasing k (p.data.functionEvals.length - 1) hk
      (by omega) (by omega)
    omega

/-- **C44.** A `next` call adds at most one point. It adds one describing the new state exactly if
it completed a generation and this is the first generation or at least the minimum gap of
evaluations was made since the last point; otherwise the plot is unchanged. -/
theorem c44_next (h : History.Of env obj o t c) {kind : EvalKind} {calls : List (Vec n F × F)}
    {r : Option (TerminationData n F)} (hn : c.next env kind = .ok (c', r))
    (hl : c'.sampler.obj.log = c.sampler.obj.log ++ calls) {p : Plot n F} (hp : c.plot = some p) :
    ∃ po p' last, o.plotOptions = some po ∧ c'.plot = some p' ∧
      p.data.functionEvals.getLast? = some last ∧
      if NextCall.Checked ⟨kind, calls, r⟩ ∧
          (c'.generation ≤ 1 ∨ last + po.minGapEvals ≤ c'.functionEvals)
      then ∃ pt : PlotPoint n F, pt.Describes c' ∧ p.data.Appended pt p'.data
      else p' = p := by
  have i := (plot_inv h).2 p hp
  obtain ⟨gs, fi, _⟩ := fresh_inv h
  have hpop : 0 < c.sampler.populationSize := by
    rw [fi.populationSize]
    have := two_le_population fi.valid
    omega
  obtain ⟨p', e1, _, e3⟩ := i.next hp hpop hn hl
  obtain ⟨g, e, -, h2, -⟩ := i.last
  refine ⟨p.options, p', e, i.options, e1, h2, ?_⟩
  rcases e3 with ⟨a1, a2, a3⟩ | ⟨a1, a2⟩
  · rw [if_pos]
    · exact ⟨_, plotPoint_describes c', a3⟩
    · refine ⟨a1, a2.imp id ?_⟩
      rintro ⟨e', he', hh⟩
      rw [h2, Option.some.injEq] at he'
      subst he'
      exact hh
  · rw [if_neg]
    · exact a2
    · rintro ⟨b1, b2⟩
      exact a1 ⟨b1, b2.imp id fun hh => ⟨e, h2, hh⟩⟩

/-- **C44.** `add_plot_point` is idempotent. -/
theorem c44_idempotent (c : CMAES n F R) : c.addPlotPoint.addPlotPoint = c.addPlotPoint := by
  unfold CMAES.addPlotPoint
  cases hp : c.plot with
  | none => simp
  | some p =>
    simp only [Option.map_some]
    congr 2
    unfold Plot.addDataPoint
    cases hg : p.lastDataPointGeneration with
    | none => simp
    | some g =>
      by_cases hh : g = c.state.generation
      · simp [hh, hg]
      · simp [hh]

/-- **C44.** Unless the last generation reported `PosDefCov`, `add_plot_point` adds a point
describing the current state exactly if evaluations were made since the last point; otherwise the
plot already ends with such a point and is unchanged. -/
theorem c44_add_plot_point (h : History.Of env obj o t c) (hs : Settled t) {p : Plot n F}
    (hp : c.plot = some p) :
    ∃ p' last, c.addPlotPoint.plot = some p' ∧ p.data.functionEvals.getLast? = some last ∧
      ∃ pt : PlotPoint n F, pt.Describes c ∧ p'.data.EndsWith pt ∧
      if last < c.functionEvals then p.data.Appended pt p'.data else p' = p := by
  have i := (plot_inv h).2 p hp
  obtain ⟨g, e, h1, h2, h3, h4, h5⟩ := i.last
  obtain ⟨i1, i2, i3, i4⟩ := i.addPoint
  refine ⟨_, e, by simp [CMAES.addPlotPoint, hp], h2, c.plotPoint, plotPoint_describes c,
    i1.settled hs i2, ?_⟩
  by_cases hg : p.lastDataPointGeneration = some c.state.generation
  · have := (i.settled hs hg).functionEvals
    rw [h2, Option.some.injEq] at this
    rw [if_neg]
    · exact i4 hg
    · rw [this]; exact lt_irrefl _
  · rw [if_pos]
    · exact i3 hg
    · refine h5 (lt_of_le_of_ne h3 fun hh => hg ?_)
      rw [h1, hh]

/-! ### C45 -/

/-- **C45.** Clearing keeps exactly the last point, and changes nothing else. -/
theorem c45_clear (h : History.Of env obj o t c) {p : Plot n F} (hp : c.plot = some p) :
    ∃ p', c.apply env .clearPlot = .ok ({ c with plot := some p' }, none) ∧
      p.data.Cleared p'.data ∧ p'.data.len = 1 ∧
      p'.lastDataPointEvals = p.lastDataPointEvals ∧
      p'.lastDataPointGeneration = p.lastDataPointGeneration ∧ p'.options = p.options := by
  have i := (plot_inv h).2 p hp
  obtain ⟨p', h1, h2, h3, h4⟩ := i.clear
  have h1' := h1
  refine ⟨p', by simp [CMAES.apply, CMAES.clearPlot, hp, h1], h3,
    (h3.aligned i.aligned i.nonempty).functionEvals, ?_, h4, ?_⟩
  · rw [h2.lastEvals, h3.functionEvals, getLast?_toList_getLast?, i.lastEvals]
  · have := h2.options
    rw [i.options] at this
    exact (Option.some.inj this).symm

/-! ### C46 -/

theorem settled_append_unfinished {kind : EvalKind} {u : List (NextCall n F)} (hs : Settled t)
    (hu : Unfinished kind u) : Settled (t ++ u) := by
  rcases List.eq_nil_or_concat u with rfl | ⟨v, s, rfl⟩
  · simpa using hs
  · have := checked_of_none (hu s (by simp)).1
    rw [List.concat_eq_append, ← List.append_assoc, settled_append this.1]
    exact this.2

/-- A successful run with its last two steps visible. -/
theorem run_ok_internal {kind : EvalKind} {d : TerminationData n F}
    (h : c.run env kind = .ok (c', d)) :
    ∃ u s c1, Exec env c (u ++ [s]) c1 ∧ s.kind = kind ∧ s.result = some d ∧
      Unfinished kind u ∧ c' = c1.runInternal d := by
  simp only [CMAES.run, Outcome.bind_eq_ok, Outcome.ok.injEq, Prod.mk.injEq] at h
  obtain ⟨⟨c1, d1⟩, h1, h2, h3⟩ := h
  rcases runLoop_cases (env := env) (kind := kind) env.runFuel c with
    ⟨c2, d2, u, s, h4, h5, h6, h7, h8, _⟩ | ⟨_, _, _, _, ⟨h4, _⟩ | ⟨_, h4, _⟩⟩
  · rw [h4] at h1
    simp only [Outcome.ok.injEq, Prod.mk.injEq] at h1
    obtain ⟨rfl, rfl⟩ := h1
    simp only at h2 h3
    subst h2 h3
    exact ⟨u, s, c2, h5, h6, h7, h8, rfl⟩
  · rw [h4] at h1; simp at h1
  · rw [h4] at h1; simp at h1

theorem sameSearch_runInternal (c : CMAES n F R) (d : TerminationData n F) :
    SameSearch c (c.runInternal d) := by
  unfold CMAES.runInternal
  by_cases hg : c.printGapEvals.isSome = true
  · simp only [CMAES.addPlotPoint, hg, ↓reduceIte]
    exact (sameSearch_addPlotPoint c).trans (sameSearch_printFinalInfo _ _)
  · simp only [CMAES.addPlotPoint, hg]
    exact sameSearch_addPlotPoint c

theorem plot_printFinalInfo (c : CMAES n F R) (rs : List TerminationReason) :
    (c.printFinalInfo rs).plot = c.plot := by
  unfold CMAES.printFinalInfo
  simp only [CMAES.print, CMAES.printInfo]
  split <;> rfl

theorem plot_runInternal (c : CMAES n F R) (d : TerminationData n F) :
    (c.runInternal d).plot = c.addPlotPoint.plot := by
  unfold CMAES.runInternal
  simp only
  split
  · exact plot_printFinalInfo _ _
  · rfl

/-- **C46.** After `run` the plot ends with a point describing the final state, unless the run ended
with `PosDefCov` (or its first generation was invalid and the generation before the run had reported
`PosDefCov`). -/
theorem c46_plot (h : History.Of env obj o t c) {kind : EvalKind} {d : TerminationData n F}
    (hr : c.run env kind = .ok (c', d)) (hd : .posDefCov ∉ d.reasons)
    (hs : .invalidFunctionValue ∈ d.reasons → Settled t) {p : Plot n F} (hp : c'.plot = some p) :
    ∃ pt : PlotPoint n F, pt.Describes c' ∧ p.data.EndsWith pt := by
  obtain ⟨u, s, c1, h1, h2, h3, h4, rfl⟩ := run_ok_internal hr
  have hset : Settled (t ++ (u ++ [s])) := by
    rw [← List.append_assoc]
    by_cases hf : s.Failed
    · rw [settled_append_failed hf]
      obtain ⟨d', hd', hm⟩ := hf
      rw [h3, Option.some.injEq] at hd'
      subst hd'
      exact settled_append_unfinished (hs hm) h4
    · rw [settled_append hf]
      rintro ⟨d', hd', hm⟩
      rw [h3, Option.some.injEq] at hd'
      subst hd'
      exact hd hm
  have hh := h.trans h1
  have ss := sameSearch_runInternal c1 d
  rw [plot_runInternal] at hp
  cases hp1 : c1.plot with
  | none => simp [CMAES.addPlotPoint, hp1] at hp
  | some q =>
    obtain ⟨p', last, e1, e2, pt, e3, e4, _⟩ := c44_add_plot_point hh hset hp1
    rw [e1, Option.some.injEq] at hp
    subst hp
    refine ⟨(c1.runInternal d).plotPoint, plotPoint_describes _, ?_⟩
    rw [plotPoint_congr ss]
    obtain ⟨i1, i2, -⟩ := ((plot_inv hh).2 q hp1).addPoint
    have := i1.settled hset i2
    simp only [CMAES.addPlotPoint, hp1, Option.map_some, Option.some.injEq] at e1
    rw [← e1]
    exact this

theorem out_printFinalInfo (c : CMAES n F R) (rs : List TerminationReason) :
    (c.printFinalInfo rs).world.out = c.world.out ++
      (if c.sampler.functionEvals ≠ c.lastPrintEvals then [c.infoRow] else []) ++
      [.final rs (match c.history.currentBest, c.history.overallBest with
        | some a, some b => some (a.value, b.value)
        | _, _ => none) c.state.mean] := by
  unfold CMAES.printFinalInfo
  by_cases hh : c.sampler.functionEvals = c.lastPrintEvals
  · simp [hh, CMAES.print, World.print]
    rfl
  · simp [hh, CMAES.print, CMAES.printInfo, World.print]
    rfl

/-- **C46.** If printing is enabled, the last thing `run` prints is the final information: the
reasons it returns, the best values and the final mean. -/
theorem c46_print (h : History.Of env obj o t c) (hg : o.printGapEvals ≠ none) {kind : EvalKind}
    {d : TerminationData n F} (hr : c.run env kind = .ok (c', d)) :
    ∃ e, c'.world.out.getLast? = some e ∧ e.IsFinalOf d.reasons c' := by
  obtain ⟨u, s, c1, h1, h2, h3, h4, rfl⟩ := run_ok_internal hr
  obtain ⟨gs, fi, _⟩ := fresh_inv (h.trans h1)
  have ss := sameSearch_runInternal c1 d
  have hsome : c1.printGapEvals.isSome = true := by
    rw [fi.printGapEvals]; exact Option.isSome_iff_ne_none.mpr hg
  refine ⟨_, ?_, rfl⟩
  simp only [CMAES.currentBestIndividual, CMAES.overallBestIndividual, CMAES.mean, ss.history,
    ss.state]
  unfold CMAES.runInternal
  simp only [CMAES.addPlotPoint, hsome, if_true]
  rw [out_printFinalInfo, List.getLast?_append]
  rfl

/-! ### Concrete cases -/

open Witness in
/-- The hypotheses of the theorems on plots are met: three generations with a minimum gap of seven
evaluations record points at 0, 4 and 12 evaluations. -/
example : ∃ t c, History.Of (wenv 2) sphere { opts with plotOptions := some ⟨7, false⟩ } t c ∧
    ∃ p, c.plot = some p ∧ p.data.functionEvals = [0, 4, 12] ∧ p.data.len = 3 ∧ Settled t ∧
      c.functionEvals = 12 := by
  obtain ⟨t, c, h, hp⟩ := exists_history (env := wenv 2) (obj := sphere)
    (o := { opts with plotOptions := some ⟨7, false⟩ }) [.seq, .par, .seq]
    (fun c t => decide (c.plot.map (fun p => (p.data.functionEvals, p.data.len)) =
      some ([0, 4, 12], 3) ∧ Settled t ∧ c.functionEvals = 12)) (by decide +kernel)
      (by decide +kernel)
  have hp := of_decide_eq_true hp
  obtain ⟨p, h1, h2⟩ := Option.map_eq_some_iff.mp hp.1
  simp only [Prod.mk.injEq] at h2
  exact ⟨t, c, h, p, h1, h2.1, h2.2, hp.2⟩

open Witness in
/-- The hypotheses of `c46_plot` and `c46_print` are met by a run that stops after two
generations. -/
example : ∃ c c' d p, History.Of (wenv 2) sphere
      { opts with plotOptions := some ⟨100, false⟩, maxGenerations := some 2, printGapEvals := some 5 }
      [] c ∧
    c.run (wenv 2) .seq = .ok (c', d) ∧ .posDefCov ∉ d.reasons ∧
    .invalidFunctionValue ∉ d.reasons ∧ c'.plot = some p ∧
    p.data.functionEvals = [0, 4, 8] := by
  obtain ⟨⟨c', d⟩, h1, h2⟩ := Outcome.of_check (x := (CMAES.create (wenv 2) World.init sphere
      { opts with plotOptions := some ⟨100, false⟩, maxGenerations := some 2, printGapEvals := some 5 }).run (wenv 2) .seq)
    (p := fun x => decide (.posDefCov ∉ x.2.reasons ∧ .invalidFunctionValue ∉ x.2.reasons ∧
      x.1.plot.map (fun p => p.data.functionEvals) = some [0, 4, 8])) (by decide +kernel)
  obtain ⟨a, b, e⟩ := of_decide_eq_true h2
  obtain ⟨p, e1, e2⟩ := Option.map_eq_some_iff.mp e
  refine ⟨_, c', d, p, ⟨World.init, CMAES.create (wenv 2) World.init sphere _, ?_, .refl _⟩, h1, a,
    b, e1, e2⟩
  have hv : CMAES.validate
      { opts with plotOptions := some ⟨100, false⟩, maxGenerations := some 2, printGapEvals := some 5 } =
      none := by decide +kernel
  simp only [CMAES.new, hv]

open Witness in
/-- **C46, violated.** A run that ends with `PosDefCov` does not record its final state: the plot
still ends with the point of the first generation although four more evaluations were made and the
mean has moved. -/
theorem c46_posDefCov_missing : ∃ c c' d p, History.Of noEigen sphere
      { opts with plotOptions := some ⟨1, false⟩ } [] c ∧
    c.run noEigen .seq = .ok (c', d) ∧ d.reasons = [.posDefCov] ∧ c'.plot = some p ∧
    p.data.functionEvals = [0, 4] ∧ c'.functionEvals = 8 ∧
    (p.data.meanDimensions 0).getLast? ≠ some (c'.mean 0) := by
  obtain ⟨⟨c', d⟩, h1, h2⟩ := Outcome.of_check (x := (CMAES.create noEigen World.init sphere
      { opts with plotOptions := some ⟨1, false⟩ }).run noEigen .seq)
    (p := fun x => decide (x.2.reasons = [.posDefCov] ∧ x.1.functionEvals = 8 ∧
      ∃ p ∈ x.1.plot, p.data.functionEvals = [0, 4] ∧
        (p.data.meanDimensions 0).getLast? ≠ some (x.1.mean 0))) (by decide +kernel)
  obtain ⟨a, b, p, e1, e2, e3⟩ := of_decide_eq_true h2
  refine ⟨_, c', d, p, ⟨World.init, CMAES.create noEigen World.init sphere _, ?_, .refl _⟩, h1, a,
    e1, e2, b, e3⟩
  have hv : CMAES.validate { opts with plotOptions := some ⟨1, false⟩ } = none := by decide +kernel
  simp only [CMAES.new, hv]

end Cmaes
