import Verif.Spec.Draw
import Verif.Lemmas.Plot

/-!
# The recorded points are states of the run
-/

set_option linter.unusedSectionVars false

namespace Cmaes
open FltLaws
variable {n : Nat} {F R : Type} [Flt F]

theorem PlotData.Shows.append {d d' : PlotData n F} {pts : List (PlotPoint n F)}
    {pt : PlotPoint n F} (h : d.Shows pts) (ha : d.Appended pt d') : d'.Shows (pts ++ [pt]) :=
  ⟨by simp [ha.functionEvals, h.functionEvals],
    by simp [ha.bestFunctionValue, h.bestFunctionValue],
    by simp [ha.medianFunctionValue, h.medianFunctionValue], by simp [ha.sigma, h.sigma],
    by simp [ha.axisRatio, h.axisRatio], fun i => by simp [ha.meanDimensions, h.meanDimensions],
    fun i => by simp [ha.sqrtEigenvalues, h.sqrtEigenvalues],
    fun i => by simp [ha.coordAxisScales, h.coordAxisScales]⟩

theorem toList_getLast?_map {α β : Type} (f : α → β) (l : List α) :
    (l.map f).getLast?.toList = l.getLast?.toList.map f := by
  rw [List.getLast?_map]
  cases l.getLast? <;> rfl

theorem PlotData.Shows.clear {d d' : PlotData n F} {pts : List (PlotPoint n F)} (h : d.Shows pts)
    (hc : d.Cleared d') : d'.Shows pts.getLast?.toList :=
  ⟨by rw [hc.functionEvals, h.functionEvals, toList_getLast?_map],
    by rw [hc.bestFunctionValue, h.bestFunctionValue, toList_getLast?_map],
    by rw [hc.medianFunctionValue, h.medianFunctionValue, toList_getLast?_map],
    by rw [hc.sigma, h.sigma, toList_getLast?_map],
    by rw [hc.axisRatio, h.axisRatio, toList_getLast?_map],
    fun i => by rw [hc.meanDimensions, h.meanDimensions, toList_getLast?_map],
    fun i => by rw [hc.sqrtEigenvalues, h.sqrtEigenvalues, toList_getLast?_map],
    fun i => by rw [hc.coordAxisScales, h.coordAxisScales, toList_getLast?_map]⟩

/-- The recorded points of `p` describe states that the run passed through. -/
structure Recorded (env : Env n F R) (obj : Obj n F) (o : Options n F) (t : List (NextCall n F))
    (c : CMAES n F R) (p : Plot n F) : Prop where
  mode : p.mode = o.mode
  points : ∃ pts, p.data.Shows pts ∧
    ∀ pt ∈ pts, ∃ c1, PassedThrough env obj o t c1 c ∧ pt.Describes c1

variable [FltLaws F] {env : Env n F R} {obj : Obj n F} {o : Options n F}
  {t : List (NextCall n F)} {c c' : CMAES n F R}

theorem PassedThrough.next {c1 : CMAES n F R} {kind : EvalKind} {calls : List (Vec n F × F)}
    {r : Option (TerminationData n F)} (h : PassedThrough env obj o t c1 c)
    (hn : c.next env kind = .ok (c', r)) (hl : c'.sampler.obj.log = c.sampler.obj.log ++ calls) :
    PassedThrough env obj o (t ++ [⟨kind, calls, r⟩]) c1 c' := by
  obtain ⟨t1, t2, rfl, h1, h2⟩ := h
  exact ⟨t1, t2 ++ [⟨kind, calls, r⟩], by rw [List.append_assoc], h1, h2.next hn hl⟩

theorem PassedThrough.quiet {c1 : CMAES n F R} {op : Op} {r : Option (TerminationData n F)}
    (h : PassedThrough env obj o t c1 c) (hq : op.Quiet) (ha : c.apply env op = .ok (c', r)) :
    PassedThrough env obj o t c1 c' := by
  obtain ⟨t1, t2, rfl, h1, h2⟩ := h
  exact ⟨t1, t2, rfl, h1, h2.quiet hq ha⟩

theorem PassedThrough.self (h : History.Of env obj o t c) : PassedThrough env obj o t c c :=
  ⟨t, [], by simp, h, .refl c⟩

theorem addDataPoint_mode (p : Plot n F) (e : Nat) (s : State n F) (h : History n F) :
    (p.addDataPoint e s h).mode = p.mode := by
  unfold Plot.addDataPoint
  split <;> simp only <;> split <;> rfl

theorem autoPlot_mode {p p' : Plot n F} (ha : c.autoPlot = .ok c') (hp : c.plot = some p)
    (hp' : c'.plot = some p') : p'.mode = p.mode := by
  unfold CMAES.autoPlot at ha
  rw [hp] at ha
  simp only at ha
  have key : c.addPlotPoint.plot = some p' → p'.mode = p.mode := by
    intro h
    simp only [CMAES.addPlotPoint, hp, Option.map_some, Option.some.injEq] at h
    rw [← h, addDataPoint_mode]
  split at ha
  · rw [Outcome.ok.injEq] at ha
    rw [← ha] at hp'
    exact key hp'
  · simp only [Outcome.bind_eq_ok, Outcome.ok.injEq] at ha
    obtain ⟨_, _, ha⟩ := ha
    split at ha
    · rw [← ha] at hp'
      exact key hp'
    · rw [← ha, hp, Option.some.injEq] at hp'
      rw [hp']

theorem next_mode {p p' : Plot n F} {kind : EvalKind} {r : Option (TerminationData n F)}
    (hn : c.next env kind = .ok (c', r)) (hp : c.plot = some p) (hp' : c'.plot = some p') :
    p'.mode = p.mode := by
  obtain ⟨calls', hcfg, hlog, _, ys, _, hc⟩ := next_cases hn
  rcases hc with hf | ⟨ps, inds, hcomp, _⟩
  · rw [hf.plot, hp, Option.some.injEq] at hp'; rw [hp']
  · obtain ⟨success, hu, hfail, hok⟩ := hcomp.update
    cases success with
    | false => rw [(hfail rfl).1, hp, Option.some.injEq] at hp'; rw [hp']
    | true =>
      obtain ⟨ca, cb, ha, hb, hd⟩ := hok rfl
      rw [(checkTermination_eq_ok hd).2.1] at hp'
      have e1 : cb.plot = ca.plot := by
        unfold CMAES.autoPrint at hb
        split at hb
        · injection hb with hb; rw [hb]
        · simp only [Outcome.bind_eq_ok, Outcome.ok.injEq] at hb
          obtain ⟨_, _, hb⟩ := hb
          rw [← hb]
          split
          · rfl
          · split <;> rfl
      rw [e1] at hp'
      exact autoPlot_mode ha (by exact hp) hp'

theorem recorded_inv (h : History.Of env obj o t c) {p : Plot n F} (hp : c.plot = some p) :
    Recorded env obj o t c p := by
  obtain ⟨w, c0, h0, he⟩ := h
  induction he generalizing p with
  | refl =>
    have hO : History.Of env obj o [] c0 := ⟨w, c0, h0, .refl c0⟩
    obtain ⟨hv, rfl⟩ := new_eq_ok h0
    rw [create_plot] at hp
    simp only [Option.map_eq_some_iff] at hp
    obtain ⟨po, hpo, rfl⟩ := hp
    obtain ⟨a1, a2, a3, a4, -⟩ := create_search env w obj o
    refine ⟨by rw [addDataPoint_mode]; rfl, [(CMAES.create env w obj o).plotPoint], ?_, ?_⟩
    · have := addDataPoint_appended (CMAES.create env w obj o) (PlotData.new (n := n) (F := F))
      have hf : (CMAES.create env w obj o).sampler.functionEvals = 0 := by rw [a1]; rfl
      rw [hf, a3, a4] at this
      exact PlotData.Shows.append (pts := [])
        ⟨rfl, rfl, rfl, rfl, rfl, fun _ => rfl, fun _ => rfl, fun _ => rfl⟩ this
    · intro pt hpt
      rw [List.mem_singleton] at hpt
      subst hpt
      exact ⟨_, .self hO, plotPoint_describes _⟩
  | next he' hn hl ih =>
    rename_i c1 c2 t1 kind calls r
    have hO : History.Of env obj o t1 c1 := ⟨w, c0, h0, he'⟩
    have hO2 : History.Of env obj o (t1 ++ [⟨kind, calls, r⟩]) c2 := ⟨w, c0, h0, he'.next hn hl⟩
    obtain ⟨i1, i2⟩ := plot_inv hO
    obtain ⟨j1, j2⟩ := plot_inv hO2
    obtain ⟨gs, hi⟩ := exec_inv he'
    have hpop : 0 < c1.sampler.populationSize := by
      rw [hi.config.populationSize]
      obtain ⟨hv, rfl⟩ := new_eq_ok h0
      rw [(create_search env w obj o).1]
      show 0 < o.populationSize
      have := two_le_population hv
      omega
    cases hp1 : c1.plot with
    | none =>
      rw [j1.mpr (i1.mp hp1)] at hp
      cases hp
    | some q =>
      obtain ⟨m, pts, hs, hpts⟩ := ih hp1
      obtain ⟨p', e1, e2, e3⟩ := (i2 q hp1).next hp1 hpop hn hl
      rw [hp, Option.some.injEq] at e1
      subst e1
      refine ⟨by rw [next_mode hn hp1 hp, m], ?_⟩
      have hpts' : ∀ pt ∈ pts, ∃ cx, PassedThrough env obj o (t1 ++ [⟨kind, calls, r⟩]) cx c2 ∧
          pt.Describes cx := fun pt h =>
        let ⟨cx, a, b⟩ := hpts pt h
        ⟨cx, a.next hn hl, b⟩
      rcases e3 with ⟨_, _, ha⟩ | ⟨_, rfl⟩
      · refine ⟨pts ++ [c2.plotPoint], hs.append ha, fun pt hpt => ?_⟩
        rw [List.mem_append, List.mem_singleton] at hpt
        rcases hpt with hpt | rfl
        · exact hpts' pt hpt
        · exact ⟨c2, .self hO2, plotPoint_describes c2⟩
      · exact ⟨pts, hs, hpts'⟩
  | quiet he' hq ha ih =>
    rename_i c1 c2 t1 op r
    have hO : History.Of env obj o t1 c1 := ⟨w, c0, h0, he'⟩
    have hO2 : History.Of env obj o t1 c2 := ⟨w, c0, h0, he'.quiet hq ha⟩
    have same : c1.plot = some p → Recorded env obj o t1 c2 p := by
      intro hp1
      obtain ⟨m, pts, hs, hpts⟩ := ih hp1
      exact ⟨m, pts, hs, fun pt h => let ⟨cx, a, b⟩ := hpts pt h; ⟨cx, a.quiet hq ha, b⟩⟩
    cases op with
    | next _ => exact hq.elim
    | run _ => exact hq.elim
    | addPlotPoint =>
      have ha' := ha
      simp only [CMAES.apply, Outcome.ok.injEq, Prod.mk.injEq] at ha'
      obtain ⟨rfl, rfl⟩ := ha'
      simp only [CMAES.addPlotPoint, Option.map_eq_some_iff] at hp
      obtain ⟨q, hq1, rfl⟩ := hp
      obtain ⟨m, pts, hs, hpts⟩ := ih hq1
      obtain ⟨_, _, b1, b2⟩ := ((plot_inv hO).2 q hq1).addPoint
      by_cases hg : q.lastDataPointGeneration = some c1.state.generation
      · rw [b2 hg]
        exact ⟨m, pts, hs, fun pt h => let ⟨cx, a, b⟩ := hpts pt h; ⟨cx, a.quiet hq ha, b⟩⟩
      · refine ⟨by rw [addDataPoint_mode, m], pts ++ [c1.plotPoint], hs.append (b1 hg), ?_⟩
        intro pt hpt
        rw [List.mem_append, List.mem_singleton] at hpt
        rcases hpt with hpt | rfl
        · obtain ⟨cx, a, b⟩ := hpts pt hpt
          exact ⟨cx, a.quiet hq ha, b⟩
        · exact ⟨c1, (PassedThrough.self hO).quiet hq ha, plotPoint_describes c1⟩
    | clearPlot =>
      have ha' := ha
      simp only [CMAES.apply, CMAES.clearPlot, Outcome.bind_eq_ok, Outcome.ok.injEq,
        Prod.mk.injEq] at ha'
      obtain ⟨c3, h1, rfl, rfl⟩ := ha'
      split at h1
      · injection h1 with h1; subst h1
        exact same hp
      · rename_i q hq1
        simp only [Outcome.bind_eq_ok, Outcome.ok.injEq] at h1
        obtain ⟨q2, hq', rfl⟩ := h1
        simp only [Option.some.injEq] at hp
        subst hp
        obtain ⟨m, pts, hs, hpts⟩ := ih hq1
        obtain ⟨q', e1, _, e3, _⟩ := ((plot_inv hO).2 q hq1).clear
        have em : q2.mode = q.mode := by
          simp only [Plot.clear, Outcome.bind_eq_ok, Outcome.ok.injEq] at hq'
          obtain ⟨_, _, rfl⟩ := hq'
          rfl
        rw [e1, Outcome.ok.injEq] at hq'
        subst hq'
        refine ⟨by rw [em, m], _, hs.clear e3, fun pt hpt => ?_⟩
        obtain ⟨cx, a, b⟩ := hpts pt (by
          rw [Option.mem_toList] at hpt
          exact List.mem_of_getLast? hpt)
        exact ⟨cx, a.quiet hq ha, b⟩
    | printInitialInfo =>
      simp only [CMAES.apply, Outcome.ok.injEq, Prod.mk.injEq] at ha
      obtain ⟨rfl, rfl⟩ := ha
      exact same hp
    | printInfo =>
      simp only [CMAES.apply, Outcome.ok.injEq, Prod.mk.injEq] at ha
      obtain ⟨rfl, rfl⟩ := ha
      exact same hp
    | printRunInfo k =>
      simp only [CMAES.apply, Outcome.ok.injEq, Prod.mk.injEq] at ha
      obtain ⟨rfl, rfl⟩ := ha
      exact same hp
    | printFinalInfo rs =>
      simp only [CMAES.apply, Outcome.ok.injEq, Prod.mk.injEq] at ha
      obtain ⟨rfl, rfl⟩ := ha
      refine same ?_
      rw [← hp]
      unfold CMAES.printFinalInfo
      simp only [CMAES.print, CMAES.printInfo]
      split <;> rfl

end Cmaes
