import Verif.Spec.Plot
import Verif.Lemmas.Run

/-!
# The recorded plot data as an invariant
-/

set_option linter.unusedSectionVars false

namespace Cmaes
open FltLaws
variable {n : Nat} {F R : Type} [Flt F]

theorem applyOffset_eq (x : F) : applyOffset x = nudged x := by
  unfold applyOffset nudged
  rw [show (1 / 10 ^ 20 : ℚ) = 1 / 100000000000000000000 by norm_num]

/-- The point recorded for `c`. -/
def CMAES.plotPoint (c : CMAES n F R) : PlotPoint n F where
  evals := c.sampler.functionEvals
  best := applyOffset ((c.history.currentBest.map fun x => x.value).getD Flt.nan)
  median := applyOffset (c.history.medianValues.head?.getD Flt.nan)
  sigma := applyOffset c.state.sigma
  axisRatio := applyOffset c.state.axisRatio
  mean := c.state.mean
  sqrtEigenvalues := fun i => applyOffset ((sortedSqrtEigenvalues c.state)[i.val]'(by
    rw [length_sortedSqrtEigenvalues]; exact i.isLt))
  coordAxisScales := fun i => applyOffset (Flt.sqrt (c.state.cov.cov i i))

theorem plotPoint_describes [FltLaws F] (c : CMAES n F R) : c.plotPoint.Describes c := by
  refine ⟨rfl, ?_, ?_, rfl, rfl, rfl, ⟨sortedSqrtEigenvalues c.state, ?_, ?_, ?_⟩, fun i => rfl⟩
  · unfold CMAES.plotPoint CMAES.currentBestIndividual
    cases c.history.currentBest <;> rfl
  · unfold CMAES.plotPoint
    cases c.history.medianValues <;> rfl
  · exact stableSort_perm _ _
  · intro hn
    unfold sortedSqrtEigenvalues stableSort at hn ⊢
    set l := List.ofFn c.state.cov.sqrtEigenvalues.diag with hl
    have hn' : ∀ x ∈ l, Flt.isNaN x = false := fun x hx =>
      hn x ((List.perm_insertionSort _ _).mem_iff.mpr hx)
    clear hn hl
    have key : ∀ a b : F, Flt.isNaN a = false → Flt.isNaN b = false →
        ((partialCmp a b != .gt) = true ↔ Flt.le a b = true) := by
      intro a b ha hb
      rw [bne_iff_ne, ne_eq, partialCmp_eq_gt_iff, le_iff]
      constructor
      · intro h
        exact ⟨ha, hb, not_lt.mp fun h' => h ⟨ha, hb, h'⟩⟩
      · rintro ⟨_, _, h⟩ ⟨_, _, h'⟩
        exact absurd h' (not_lt.mpr h)
    revert hn'
    induction l with
    | nil => simp
    | cons a l ih =>
      intro hn'
      have iha := ih (fun x hx => hn' x (by simp [hx]))
      rw [List.insertionSort_cons]
      have hmem : ∀ x ∈ l.insertionSort fun a b => (partialCmp a b != .gt) = true,
          Flt.isNaN x = false := fun x hx =>
        hn' x (by simp [(List.perm_insertionSort _ _).mem_iff.mp hx])
      revert iha hmem
      generalize (l.insertionSort fun a b => (partialCmp a b != .gt) = true) = m
      have ha := hn' a (by simp)
      intro iha hmem
      induction m with
      | nil => simp
      | cons b m ihm =>
        have hb := hmem b (by simp)
        rw [List.orderedInsert_cons]
        split
        · rename_i hab
          rw [key a b ha hb] at hab
          refine List.pairwise_cons.mpr ⟨?_, iha⟩
          intro x hx
          rcases List.mem_cons.mp hx with rfl | hx
          · exact hab
          · have := (List.pairwise_cons.mp iha).1 x hx
            have h1 := le_iff.mp hab
            have h2 := le_iff.mp this
            exact le_iff.mpr ⟨h1.1, h2.2.1, h1.2.2.trans h2.2.2⟩
        · rename_i hab
          rw [key a b ha hb, le_iff] at hab
          have hba : Flt.le b a = true := le_iff.mpr ⟨hb, ha, by
            by_contra h
            exact hab ⟨ha, hb, (not_le.mp h).le⟩⟩
          refine List.pairwise_cons.mpr ⟨?_, ihm (List.pairwise_cons.mp iha).2
            fun x hx => hmem x (by simp [hx])⟩
          intro x hx
          rcases (List.mem_orderedInsert _).mp hx with rfl | hx
          · exact hba
          · exact (List.pairwise_cons.mp iha).1 x hx
  · apply List.ext_getElem
    · simp [length_sortedSqrtEigenvalues]
    · intro i h1 h2
      simp [CMAES.plotPoint, applyOffset_eq]

theorem addDataPoint_appended (c : CMAES n F R) (d : PlotData n F) :
    d.Appended c.plotPoint (d.addDataPoint c.sampler.functionEvals c.state c.history) :=
  ⟨rfl, rfl, rfl, rfl, rfl, fun _ => rfl, fun _ => rfl, fun _ => rfl⟩

theorem PlotData.Appended.endsWith {d d' : PlotData n F} {pt : PlotPoint n F}
    (h : d.Appended pt d') : d'.EndsWith pt :=
  ⟨by simp [h.functionEvals], by simp [h.bestFunctionValue], by simp [h.medianFunctionValue],
    by simp [h.sigma], by simp [h.axisRatio], fun i => by simp [h.meanDimensions],
    fun i => by simp [h.sqrtEigenvalues], fun i => by simp [h.coordAxisScales]⟩

theorem PlotData.Appended.aligned {d d' : PlotData n F} {pt : PlotPoint n F} {k : Nat}
    (h : d.Appended pt d') (ha : d.Aligned k) : d'.Aligned (k + 1) :=
  ⟨by simp [h.functionEvals, ha.functionEvals], by simp [h.bestFunctionValue, ha.bestFunctionValue],
    by simp [h.medianFunctionValue, ha.medianFunctionValue], by simp [h.sigma, ha.sigma],
    by simp [h.axisRatio, ha.axisRatio], fun i => by simp [h.meanDimensions, ha.meanDimensions],
    fun i => by simp [h.sqrtEigenvalues, ha.sqrtEigenvalues],
    fun i => by simp [h.coordAxisScales, ha.coordAxisScales]⟩

/-! ### Clearing -/

theorem clearSeries_eq {α : Type} {l : List α} (h : l ≠ []) :
    clearSeries l = .ok l.getLast?.toList := by
  match l, h with
  | [a], _ => rfl
  | a :: b :: l, _ => simp [clearSeries, List.getLast?_eq_some_getLast]

theorem mapM_ok {α β : Type} {f : α → Outcome β} {g : α → β} {l : List α}
    (h : ∀ a ∈ l, f a = .ok (g a)) : l.mapM f = .ok (l.map g) := by
  induction l with
  | nil => rfl
  | cons a l ih =>
    rw [List.mapM_cons, h a (by simp), ih fun x hx => h x (by simp [hx])]
    rfl

theorem clearDims_eq {f : Fin n → List F} (h : ∀ i, f i ≠ []) :
    clearDims f = .ok fun i => (f i).getLast?.toList := by
  unfold clearDims
  rw [mapM_ok (g := fun i => (f i).getLast?.toList) fun i _ => clearSeries_eq (h i)]
  simp only [Outcome.ok_bind, Outcome.ok.injEq]
  funext i
  simp

theorem clear_eq {d : PlotData n F} {k : Nat} (ha : d.Aligned k) (hk : 0 < k) :
    ∃ d', d.clear = .ok d' ∧ d.Cleared d' := by
  have ne : ∀ {α : Type} {l : List α}, l.length = k → l ≠ [] := by
    rintro α l h rfl
    simp at h; omega
  refine ⟨_, by
    unfold PlotData.clear
    rw [clearSeries_eq (ne ha.functionEvals), clearSeries_eq (ne ha.bestFunctionValue),
      clearSeries_eq (ne ha.medianFunctionValue), clearSeries_eq (ne ha.sigma),
      clearSeries_eq (ne ha.axisRatio), clearDims_eq fun i => ne (ha.meanDimensions i),
      clearDims_eq fun i => ne (ha.coordAxisScales i),
      clearDims_eq fun i => ne (ha.sqrtEigenvalues i)]
    rfl, ⟨rfl, rfl, rfl, rfl, rfl, fun _ => rfl, fun _ => rfl, fun _ => rfl⟩⟩

theorem length_toList_getLast {α : Type} {l : List α} {k : Nat} (h : l.length = k) (hk : 0 < k) :
    l.getLast?.toList.length = 1 := by
  cases l with
  | nil => simp at h; omega
  | cons a l => simp [List.getLast?_eq_some_getLast]

theorem PlotData.Cleared.aligned {d d' : PlotData n F} {k : Nat} (h : d.Cleared d')
    (ha : d.Aligned k) (hk : 0 < k) : d'.Aligned 1 :=
  ⟨by rw [h.functionEvals]; exact length_toList_getLast ha.functionEvals hk,
    by rw [h.bestFunctionValue]; exact length_toList_getLast ha.bestFunctionValue hk,
    by rw [h.medianFunctionValue]; exact length_toList_getLast ha.medianFunctionValue hk,
    by rw [h.sigma]; exact length_toList_getLast ha.sigma hk,
    by rw [h.axisRatio]; exact length_toList_getLast ha.axisRatio hk,
    fun i => by rw [h.meanDimensions]; exact length_toList_getLast (ha.meanDimensions i) hk,
    fun i => by rw [h.sqrtEigenvalues]; exact length_toList_getLast (ha.sqrtEigenvalues i) hk,
    fun i => by rw [h.coordAxisScales]; exact length_toList_getLast (ha.coordAxisScales i) hk⟩

theorem getLast?_toList_getLast? {α : Type} (l : List α) : l.getLast?.toList.getLast? = l.getLast? := by
  cases l.getLast? <;> rfl

theorem PlotData.Cleared.endsWith {d d' : PlotData n F} {pt : PlotPoint n F} (h : d.Cleared d') 
    (he : d.EndsWith pt) : d'.EndsWith pt :=
  ⟨by rw [h.functionEvals, getLast?_toList_getLast?, he.functionEvals],
    by rw [h.bestFunctionValue, getLast?_toList_getLast?, he.bestFunctionValue],
    by rw [h.medianFunctionValue, getLast?_toList_getLast?, he.medianFunctionValue],
    by rw [h.sigma, getLast?_toList_getLast?, he.sigma],
    by rw [h.axisRatio, getLast?_toList_getLast?, he.axisRatio],
    fun i => by rw [h.meanDimensions, getLast?_toList_getLast?, he.meanDimensions],
    fun i => by rw [h.sqrtEigenvalues, getLast?_toList_getLast?, he.sqrtEigenvalues],
    fun i => by rw [h.coordAxisScales, getLast?_toList_getLast?, he.coordAxisScales]⟩

/-! ### The invariant -/

/-- What is true of the plot `p` of `c` after the calls `t`. -/
structure PlotInv (o : Options n F) (t : List (NextCall n F)) (c : CMAES n F R) (p : Plot n F) :
    Prop where
  options : o.plotOptions = some p.options
  aligned : p.data.Aligned p.data.len
  nonempty : 0 < p.data.len
  lastEvals : p.lastDataPointEvals = p.data.functionEvals.getLast?
  increasing : p.data.functionEvals.Pairwise (· < ·)
  last : ∃ g e, p.lastDataPointGeneration = some g ∧ p.data.functionEvals.getLast? = some e ∧
    g ≤ c.state.generation ∧ e ≤ c.sampler.functionEvals ∧
    (g < c.state.generation → e < c.sampler.functionEvals)
  settled : Settled t → p.lastDataPointGeneration = some c.state.generation →
    p.data.EndsWith c.plotPoint

theorem pairwise_append_last {l : List Nat} {e x : Nat} (h : l.Pairwise (· < ·))
    (he : l.getLast? = some e) (hx : e < x) : (l ++ [x]).Pairwise (· < ·) := by
  rw [List.pairwise_append]
  refine ⟨h, by simp, ?_⟩
  intro a ha b hb
  obtain rfl : b = x := by simpa using hb
  have hne : l ≠ [] := by rintro rfl; simp at ha
  rw [List.getLast?_eq_some_getLast hne, Option.some.injEq] at he
  rcases List.mem_iff_getElem.mp ha with ⟨i, hi, rfl⟩
  by_cases hlast : i = l.length - 1
  · rw [List.getLast_eq_getElem] at he
    have : l[i] = e := by rw [← he]; congr
    omega
  · have := List.pairwise_iff_getElem.mp h i (l.length - 1) hi (by omega) (by omega)
    rw [List.getLast_eq_getElem] at he
    omega

theorem PlotInv.addPoint {o : Options n F} {t : List (NextCall n F)} {c : CMAES n F R}
    {p : Plot n F} (h : PlotInv o t c p) :
    PlotInv o t c (p.addDataPoint c.sampler.functionEvals c.state c.history) ∧
    (p.addDataPoint c.sampler.functionEvals c.state c.history).lastDataPointGeneration =
      some c.state.generation ∧
    (p.lastDataPointGeneration ≠ some c.state.generation →
      p.data.Appended c.plotPoint
        (p.addDataPoint c.sampler.functionEvals c.state c.history).data) ∧
    (p.lastDataPointGeneration = some c.state.generation →
      p.addDataPoint c.sampler.functionEvals c.state c.history = p) := by
  obtain ⟨g, e, h1, h2, h3, h4, h5⟩ := h.last
  by_cases hg : g = c.state.generation
  · have e1 : p.addDataPoint c.sampler.functionEvals c.state c.history = p := by
      simp [Plot.addDataPoint, h1, hg]
    rw [e1]
    exact ⟨h, by rw [h1, hg], fun hne => absurd (by rw [h1, hg]) hne, fun _ => rfl⟩
  · have e1 : p.addDataPoint c.sampler.functionEvals c.state c.history =
        { p with
          data := p.data.addDataPoint c.sampler.functionEvals c.state c.history
          lastDataPointEvals := some c.sampler.functionEvals
          lastDataPointGeneration := some c.state.generation } := by
      simp [Plot.addDataPoint, h1, hg]
    have ha := addDataPoint_appended c p.data
    have hal := ha.aligned h.aligned
    rw [e1]
    have hlt := h5 (by omega)
    refine ⟨⟨h.options, ?_, ?_, ?_, ?_, ⟨c.state.generation, c.sampler.functionEvals, rfl, ?_,
      le_rfl, le_rfl, by omega⟩, fun _ _ => ha.endsWith⟩, rfl, fun _ => ha, ?_⟩
    · have : (p.data.addDataPoint c.sampler.functionEvals c.state c.history).len =
          p.data.len + 1 := hal.functionEvals
      simpa [this] using hal
    · show 0 < (p.data.addDataPoint c.sampler.functionEvals c.state c.history).len
      have : (p.data.addDataPoint c.sampler.functionEvals c.state c.history).len =
          p.data.len + 1 := hal.functionEvals
      omega
    · show some _ = (p.data.addDataPoint _ _ _).functionEvals.getLast?
      rw [ha.functionEvals]; simp [CMAES.plotPoint]
    · show (p.data.addDataPoint _ _ _).functionEvals.Pairwise (· < ·)
      rw [ha.functionEvals]
      exact pairwise_append_last h.increasing h2 hlt
    · show (p.data.addDataPoint _ _ _).functionEvals.getLast? = _
      rw [ha.functionEvals]; simp [CMAES.plotPoint]
    · intro hc
      rw [h1] at hc
      exact absurd (Option.some.inj hc) hg

theorem plotPoint_congr {c c' : CMAES n F R} (h : SameSearch c c') : c'.plotPoint = c.plotPoint := by
  unfold CMAES.plotPoint
  simp only [h.sampler, h.history]
  congr 1 <;> simp [h.state]

theorem PlotInv.congr {o : Options n F} {t : List (NextCall n F)} {c c' : CMAES n F R}
    {p : Plot n F} (h : PlotInv o t c p) (hs : SameSearch c c') : PlotInv o t c' p :=
  ⟨h.options, h.aligned, h.nonempty, h.lastEvals, h.increasing,
    by rw [hs.state, hs.sampler]; exact h.last,
    by rw [hs.state, plotPoint_congr hs]; exact h.settled⟩

variable [FltLaws F] {env : Env n F R} {obj : Obj n F} {o : Options n F}
  {t : List (NextCall n F)} {c c' : CMAES n F R}

theorem PlotInv.clear {p : Plot n F} (h : PlotInv o t c p) :
    ∃ p', p.clear = .ok p' ∧ PlotInv o t c p' ∧ p.data.Cleared p'.data ∧
      p'.lastDataPointGeneration = p.lastDataPointGeneration := by
  obtain ⟨d', h1, h2⟩ := clear_eq h.aligned h.nonempty
  have hal := h2.aligned h.aligned h.nonempty
  have hlen : d'.len = 1 := hal.functionEvals
  refine ⟨{ p with data := d' }, by simp [Plot.clear, h1], ⟨h.options, ?_, ?_, ?_, ?_, ?_, ?_⟩,
    h2, rfl⟩
  · show d'.Aligned d'.len
    rw [hlen]; exact hal
  · show 0 < d'.len
    omega
  · show p.lastDataPointEvals = d'.functionEvals.getLast?
    rw [h2.functionEvals, getLast?_toList_getLast?, h.lastEvals]
  · show d'.functionEvals.Pairwise (· < ·)
    rw [h2.functionEvals]
    cases p.data.functionEvals.getLast? <;> simp
  · obtain ⟨g, e, a1, a2, a3⟩ := h.last
    refine ⟨g, e, a1, ?_, a3⟩
    show d'.functionEvals.getLast? = _
    rw [h2.functionEvals, getLast?_toList_getLast?, a2]
  · intro a b
    exact h2.endsWith (h.settled a b)

theorem settled_append_failed {s : NextCall n F} (hs : s.Failed) :
    Settled (t ++ [s]) ↔ Settled t := by
  unfold Settled
  rw [List.filter_append]
  simp [hs]

theorem settled_append {s : NextCall n F} (hs : ¬ s.Failed) :
    Settled (t ++ [s]) ↔ ¬ s.ReportsPosDef := by
  unfold Settled
  rw [List.filter_append]
  simp [hs]

/-- What one `next` call does to the plot. -/
theorem PlotInv.next {p : Plot n F} {kind : EvalKind} {calls : List (Vec n F × F)}
    {r : Option (TerminationData n F)} (h : PlotInv o t c p) (hp : c.plot = some p)
    (hpop : 0 < c.sampler.populationSize) (hn : c.next env kind = .ok (c', r))
    (hl : c'.sampler.obj.log = c.sampler.obj.log ++ calls) :
    ∃ p', c'.plot = some p' ∧ PlotInv o (t ++ [⟨kind, calls, r⟩]) c' p' ∧
      ((NextCall.Checked ⟨kind, calls, r⟩ ∧
          (c'.state.generation ≤ 1 ∨ ∃ e, p.data.functionEvals.getLast? = some e ∧
            e + p.options.minGapEvals ≤ c'.sampler.functionEvals) ∧
          p.data.Appended c'.plotPoint p'.data) ∨
        (¬ (NextCall.Checked ⟨kind, calls, r⟩ ∧
          (c'.state.generation ≤ 1 ∨ ∃ e, p.data.functionEvals.getLast? = some e ∧
            e + p.options.minGapEvals ≤ c'.sampler.functionEvals)) ∧ p' = p)) := by
  obtain ⟨calls', hcfg, hlog, _, ys, _, hc⟩ := next_cases hn
  have ec : calls' = calls := List.append_cancel_left (hlog.symm.trans hl)
  subst ec
  obtain ⟨g, e, h1, h2, h3, h4, h5⟩ := h.last
  rcases hc with hf | ⟨ps, inds, hcomp, _⟩
  · refine ⟨p, by rw [hf.plot, hp], ⟨h.options, h.aligned, h.nonempty, h.lastEvals, h.increasing,
      ?_, ?_⟩, .inr ⟨fun hh => hh.1.1 hf.failed, rfl⟩⟩
    · rw [hf.state, hf.evals]; exact h.last
    · rw [settled_append_failed hf.failed, hf.state]
      intro a b
      have : c'.plotPoint = c.plotPoint := by
        unfold CMAES.plotPoint
        simp only [hf.evals, hf.history]
        congr 1 <;> simp [hf.state]
      rw [this]
      exact h.settled a b
  · obtain ⟨success, hu, hfail, hok⟩ := hcomp.update
    have hgen := update_generation hu
    have hev := hcomp.evals
    cases success with
    | false =>
      obtain ⟨hpl, _, _, _, hr⟩ := hfail rfl
      have hrep : NextCall.ReportsPosDef (NextCall.mk kind calls' r) :=
        ⟨_, hr, by simp [CMAES.terminationData]⟩
      refine ⟨p, by rw [hpl, hp], ⟨h.options, h.aligned, h.nonempty, h.lastEvals, h.increasing,
        ⟨g, e, h1, h2, ?_, ?_, ?_⟩, ?_⟩, .inr ⟨fun hh => hh.1.2 hrep, rfl⟩⟩
      · simpa [hgen] using h3
      · omega
      · intro; omega
      · intro hse
        exact absurd hrep ((settled_append hcomp.not_failed).mp hse)
    | true =>
      obtain ⟨c1, c2, ha, hb, hd⟩ := hok rfl
      have hchk : NextCall.Checked (NextCall.mk kind calls' r) :=
        ⟨hcomp.not_failed, fun hh => by
          have := hcomp.posDef_iff.mp hh
          rw [hu] at this
          simp at this⟩
      set cc : CMAES n F R := { c with
        sampler := c'.sampler, world := { c.world with steps := c.world.steps + 1 },
        history := c'.history, state := c'.state } with hcc
      have s1 := sameSearch_autoPlot ha
      have s2 := sameSearch_autoPrint hb
      obtain ⟨s3, hplot3, _⟩ := checkTermination_eq_ok hd
      have hpl2 : c2.plot = c1.plot := by
        unfold CMAES.autoPrint at hb
        split at hb
        · injection hb with hb; rw [hb]
        · simp only [Outcome.bind_eq_ok, Outcome.ok.injEq] at hb
          obtain ⟨_, _, hb⟩ := hb
          rw [← hb]
          split
          · rfl
          · split <;> rfl
      have ss : SameSearch cc c' := (s1.trans s2).trans s3
      have hpc : cc.plot = some p := hp
      have gen1 : cc.state.generation = c.state.generation + 1 := by simpa [hcc] using hgen
      have ev1 : cc.sampler.functionEvals = c.sampler.functionEvals + c.sampler.populationSize := by
        simpa [hcc] using hev
      -- the invariant before a point is added
      have i0 : PlotInv o (t ++ [⟨kind, calls', r⟩]) cc p :=
        ⟨h.options, h.aligned, h.nonempty, h.lastEvals, h.increasing,
          ⟨g, e, h1, h2, by omega, by omega, by omega⟩, fun _ hg => by
            rw [h1, Option.some.injEq] at hg; omega⟩
      obtain ⟨i1, i2, i3, i4⟩ := i0.addPoint
      have hne : p.lastDataPointGeneration ≠ some cc.state.generation := by
        rw [h1]
        intro hg
        rw [Option.some.injEq] at hg
        omega
      have happ := i3 hne
      rw [← plotPoint_congr ss] at happ
      have fe : c'.sampler.functionEvals = cc.sampler.functionEvals := rfl
      have fg : c'.state.generation = cc.state.generation := rfl
      unfold CMAES.autoPlot at ha
      rw [hpc] at ha
      simp only at ha
      by_cases hg1 : cc.state.generation ≤ 1
      · rw [if_pos hg1, Outcome.ok.injEq] at ha
        refine ⟨p.addDataPoint cc.sampler.functionEvals cc.state cc.history, ?_, i1.congr ss,
          .inl ⟨hchk, .inl (by rw [fg]; exact hg1), happ⟩⟩
        rw [hplot3, hpl2, ← ha]
        simp [CMAES.addPlotPoint, hpc]
      · rw [if_neg hg1] at ha
        have hnx : p.nextDataPointEvals = usizeAdd e p.options.minGapEvals := by
          simp [Plot.nextDataPointEvals, h.lastEvals, h2]
        rw [hnx] at ha
        unfold usizeAdd at ha
        split at ha
        · simp at ha
        · simp only [Outcome.ok_bind, Outcome.ok.injEq] at ha
          by_cases hle : e + p.options.minGapEvals ≤ cc.sampler.functionEvals
          · rw [if_pos hle] at ha
            refine ⟨p.addDataPoint cc.sampler.functionEvals cc.state cc.history, ?_, i1.congr ss,
              .inl ⟨hchk, .inr ⟨e, h2, by rw [fe]; exact hle⟩, happ⟩⟩
            rw [hplot3, hpl2, ← ha]
            simp [CMAES.addPlotPoint, hpc]
          · rw [if_neg hle] at ha
            refine ⟨p, by rw [hplot3, hpl2, ← ha, hpc], i0.congr ss, .inr ⟨?_, rfl⟩⟩
            rintro ⟨_, hh | ⟨e', he', hh⟩⟩
            · rw [fg] at hh; exact hg1 hh
            · rw [h2, Option.some.injEq] at he'
              subst he'
              rw [fe] at hh; exact hle hh

/-- Quiet operations keep the invariant. -/
theorem PlotInv.quiet {op : Op} {r : Option (TerminationData n F)} (hq : op.Quiet)
    (ha : c.apply env op = .ok (c', r)) (h : ∀ p, c.plot = some p → PlotInv o t c p) :
    ∀ p, c'.plot = some p → PlotInv o t c' p := by
  have hs := (quiet_sameSearch hq ha).1
  intro p' hp'
  suffices PlotInv o t c p' from this.congr hs
  cases op with
  | next _ => exact hq.elim
  | run _ => exact hq.elim
  | addPlotPoint =>
    simp only [CMAES.apply, Outcome.ok.injEq, Prod.mk.injEq] at ha
    obtain ⟨rfl, rfl⟩ := ha
    simp only [CMAES.addPlotPoint, Option.map_eq_some_iff] at hp'
    obtain ⟨p, hp, rfl⟩ := hp'
    exact ((h p hp).addPoint).1
  | clearPlot =>
    simp only [CMAES.apply, CMAES.clearPlot, Outcome.bind_eq_ok, Outcome.ok.injEq,
      Prod.mk.injEq] at ha
    obtain ⟨c1, h1, rfl, rfl⟩ := ha
    split at h1
    · rename_i hpn
      injection h1 with h1; subst h1
      exact h p' hp'
    · rename_i p hp
      simp only [Outcome.bind_eq_ok, Outcome.ok.injEq] at h1
      obtain ⟨q, hq', rfl⟩ := h1
      simp only [Option.some.injEq] at hp'
      subst hp'
      obtain ⟨q', e1, e2, _⟩ := (h p hp).clear
      rw [e1] at hq'
      injection hq' with hq'
      subst hq'
      exact e2
  | printInitialInfo =>
    simp only [CMAES.apply, Outcome.ok.injEq, Prod.mk.injEq] at ha
    obtain ⟨rfl, rfl⟩ := ha
    exact h p' hp'
  | printInfo =>
    simp only [CMAES.apply, Outcome.ok.injEq, Prod.mk.injEq] at ha
    obtain ⟨rfl, rfl⟩ := ha
    exact h p' hp'
  | printRunInfo k =>
    simp only [CMAES.apply, Outcome.ok.injEq, Prod.mk.injEq] at ha
    obtain ⟨rfl, rfl⟩ := ha
    exact h p' hp'
  | printFinalInfo rs =>
    simp only [CMAES.apply, Outcome.ok.injEq, Prod.mk.injEq] at ha
    obtain ⟨rfl, rfl⟩ := ha
    refine h p' ?_
    rw [← hp']
    unfold CMAES.printFinalInfo
    simp only [CMAES.print, CMAES.printInfo]
    split <;> rfl

theorem two_le_population {o : Options n F} (h : CMAES.validate o = none) :
    2 ≤ o.populationSize := by
  by_contra hlt
  unfold CMAES.validate at h
  by_cases h1 : n = 0
  · simp [h1] at h
  · simp [h1, show o.populationSize < 2 by omega] at h

theorem create_plot (env : Env n F R) (w : World n F) (obj : Obj n F) (o : Options n F) :
    (CMAES.create env w obj o).plot = o.plotOptions.map fun po =>
      (Plot.new po o.mode).addDataPoint 0 (State.new o.initialMean o.initialStepSize)
        History.new := by
  unfold CMAES.create
  simp only
  split <;>
  · simp only [CMAES.printInitialInfo, CMAES.print, CMAES.addPlotPoint, Option.map_map]
    cases o.plotOptions <;> rfl

theorem plot_inv (h : History.Of env obj o t c) :
    (c.plot = none ↔ o.plotOptions = none) ∧ ∀ p, c.plot = some p → PlotInv o t c p := by
  obtain ⟨w, c0, h0, he⟩ := h
  induction he with
  | refl =>
    obtain ⟨hv, rfl⟩ := new_eq_ok h0
    rw [create_plot]
    refine ⟨by simp, ?_⟩
    intro p hp
    simp only [Option.map_eq_some_iff] at hp
    obtain ⟨po, hpo, rfl⟩ := hp
    obtain ⟨a1, a2, a3, a4, -⟩ := create_search env w obj o
    refine ⟨hpo, ⟨rfl, rfl, rfl, rfl, rfl, fun _ => rfl, fun _ => rfl, fun _ => rfl⟩,
      Nat.one_pos, rfl, by simp [Plot.addDataPoint, Plot.new, PlotData.addDataPoint, PlotData.new],
      ⟨0, 0, rfl, rfl, Nat.zero_le _, Nat.zero_le _, ?_⟩, fun _ _ => ?_⟩
    · rw [a3]
      intro hlt
      simp [State.new] at hlt
    · set c1 := CMAES.create env w obj o with hc1
      have hf : c1.sampler.functionEvals = 0 := by rw [a1]; rfl
      have := addDataPoint_appended c1 (PlotData.new (n := n) (F := F))
      rw [hf, a3, a4] at this
      exact this.endsWith
  | next he' hn hl ih =>
    rename_i c1 c2 t1 kind calls r
    obtain ⟨ih1, ih2⟩ := ih
    obtain ⟨gs, hi⟩ := exec_inv he'
    have hpop : 0 < c1.sampler.populationSize := by
      rw [hi.config.populationSize]
      obtain ⟨hv, rfl⟩ := new_eq_ok h0
      rw [(create_search env w obj o).1]
      show 0 < o.populationSize
      have := two_le_population hv
      omega
    cases hp : c1.plot with
    | some p =>
      obtain ⟨p', e1, e2, _⟩ := (ih2 p hp).next hp hpop hn hl
      refine ⟨?_, ?_⟩
      · rw [e1, (ih2 p hp).options]; simp
      · intro q hq
        rw [e1, Option.some.injEq] at hq
        subst hq
        exact e2
    | none =>
      have : c2.plot = none := by
        obtain ⟨calls', hcfg, hlog, _, ys, _, hc⟩ := next_cases hn
        rcases hc with hf | ⟨ps, inds, hcomp, _⟩
        · rw [hf.plot, hp]
        · obtain ⟨success, hu, hfail, hok⟩ := hcomp.update
          cases success with
          | false => rw [(hfail rfl).1, hp]
          | true =>
            obtain ⟨ca, cb, ha, hb, hd⟩ := hok rfl
            rw [(checkTermination_eq_ok hd).2.1]
            have e1 : cb.plot = ca.plot := by
              unfold CMAES.autoPrint at hb
              split at hb
              · injection hb with hb; rw [hb]
              · simp only [Outcome.bind_eq_ok, Outcome.ok.injEq] at hb
                obtain ⟨_, _, hb⟩ := hb
                rw [← hb]
                split
                · rfl
                · split <;> rfl
            rw [e1]
            simp only [CMAES.autoPlot, hp, Outcome.ok.injEq] at ha
            rw [← ha]
      exact ⟨⟨fun _ => ih1.mp hp, fun _ => this⟩, fun p' hp' => by simp [this] at hp'⟩
  | quiet he' hq ha ih =>
    rename_i c1 c2 t1 op r
    obtain ⟨ih1, ih2⟩ := ih
    refine ⟨?_, PlotInv.quiet hq ha ih2⟩
    rw [← ih1]
    cases op with
    | next _ => exact hq.elim
    | run _ => exact hq.elim
    | addPlotPoint =>
      simp only [CMAES.apply, Outcome.ok.injEq, Prod.mk.injEq] at ha
      obtain ⟨rfl, rfl⟩ := ha
      simp [CMAES.addPlotPoint]
    | clearPlot =>
      simp only [CMAES.apply, CMAES.clearPlot, Outcome.bind_eq_ok, Outcome.ok.injEq,
        Prod.mk.injEq] at ha
      obtain ⟨c1, h1, rfl, rfl⟩ := ha
      split at h1
      · injection h1 with h1; subst h1; rfl
      · rename_i p hp
        simp only [Outcome.bind_eq_ok, Outcome.ok.injEq] at h1
        obtain ⟨q, hq', rfl⟩ := h1
        simp [hp]
    | printInitialInfo =>
      simp only [CMAES.apply, Outcome.ok.injEq, Prod.mk.injEq] at ha
      obtain ⟨rfl, rfl⟩ := ha
      rfl
    | printInfo =>
      simp only [CMAES.apply, Outcome.ok.injEq, Prod.mk.injEq] at ha
      obtain ⟨rfl, rfl⟩ := ha
      rfl
    | printRunInfo k =>
      simp only [CMAES.apply, Outcome.ok.injEq, Prod.mk.injEq] at ha
      obtain ⟨rfl, rfl⟩ := ha
      rfl
    | printFinalInfo rs =>
      simp only [CMAES.apply, Outcome.ok.injEq, Prod.mk.injEq] at ha
      obtain ⟨rfl, rfl⟩ := ha
      unfold CMAES.printFinalInfo
      simp only [CMAES.print, CMAES.printInfo]
      split <;> rfl

end Cmaes
