import Verif.Model.Release
import Verif.Props.QuietOutcome
import Verif.Witness

/-!
# C100: release builds
-/

set_option linter.unusedSectionVars false

namespace Cmaes
variable {n : Nat} {F R : Type} [Flt F]

/-- The same outcome up to `P`, unless the first computation panics because of an overflow. -/
def CheckedRel {α β : Type} (P : α → β → Prop) (x : Outcome α) (y : Outcome β) : Prop :=
  x = .panic .overflow ∨ Outcome.Rel P x y

namespace CheckedRel
variable {α β γ δ : Type} {P : α → β → Prop} {Q : γ → δ → Prop}

theorem ok {a : α} {b : β} (h : P a b) : CheckedRel P (.ok a) (.ok b) := .inr (.ok h)

theorem bind {x : Outcome α} {y : Outcome β} {f : α → Outcome γ} {g : β → Outcome δ}
    (h : CheckedRel P x y) (hf : ∀ a b, x = .ok a → y = .ok b → P a b → CheckedRel Q (f a) (g b)) :
    CheckedRel Q (x >>= f) (y >>= g) := by
  rcases h with rfl | h
  · exact .inl rfl
  · cases h with
    | ok h => exact hf _ _ rfl rfl h
    | panic p => exact .inr (.panic p)
    | diverge => exact .inr .diverge

theorem of_eq {x y : Outcome α} (h : x = y) : CheckedRel Eq x y := .inr (.of_eq h)

theorem refl (x : Outcome α) : CheckedRel Eq x x := of_eq rfl

theorem eq {x y : Outcome α} (h : CheckedRel Eq x y) (hx : x ≠ .panic .overflow) : y = x := by
  rcases h with h | h
  · exact absurd h hx
  · cases h with
    | ok h => rw [h]
    | panic p => rfl
    | diverge => rfl

end CheckedRel

theorem wrapI32_of_lt {z : Int} (h0 : 0 ≤ z) (h : z < 2 ^ 31) : wrapI32 z = z := by
  unfold wrapI32; omega

theorem exponentR_eq {generation : Nat} (h : 2 * (generation + 1) < 2 ^ 31) :
    exponentR generation = 2 * (generation + 1) := by
  unfold exponentR
  have e1 : wrapI32 (generation : Int) = generation := wrapI32_of_lt (by omega) (by omega)
  have e2 : wrapI32 ((generation : Int) + 1) = generation + 1 :=
    wrapI32_of_lt (by omega) (by omega)
  rw [e1, e2, wrapI32_of_lt (by omega) (by omega)]

theorem wrapAdd_of_lt {a b : Nat} (h : a + b < 2 ^ 64) : wrapAdd a b = a + b :=
  Nat.mod_eq_of_lt h

theorem heaviside_checked (p : Parameters F) (generation : Nat) (ps : Vec n F) :
    CheckedRel Eq (heaviside p generation ps) (.ok (heavisideR p generation ps)) := by
  unfold heaviside
  split
  · exact .inl rfl
  · refine .of_eq ?_
    have e : powiInt (1 - p.cs) (exponentR generation) =
        Flt.powi (1 - p.cs) (2 * (generation + 1)) := by
      have h0 : (0 : Int) ≤ 2 * ((generation : Int) + 1) := by omega
      have h1 : (2 * ((generation : Int) + 1)).toNat = 2 * (generation + 1) := by omega
      unfold powiInt
      rw [exponentR_eq (by omega), if_pos h0, h1]
    unfold heavisideR
    rw [e]

theorem update_checked (eigen : Mat n F → Option (Mat n F × Vec n F)) (tree : SplitTree)
    (evals : Nat) (p : Parameters F) (inds : List (EvaluatedPoint n F)) (s : State n F) :
    CheckedRel Eq (s.update eigen tree evals p inds) (s.updateR eigen tree evals p inds) := by
  unfold State.update State.updateR
  refine .bind (.refl _) ?_
  rintro yw _ - - rfl
  dsimp only
  rcases heaviside_checked p s.generation (newPathSigma p s yw) with h | h
  · rw [h]; exact .inl rfl
  · obtain ⟨b, hb, rfl⟩ := h.ok_right
    rw [hb]
    exact .refl _

theorem autoPlot_checked (c : CMAES n F R) : CheckedRel Eq c.autoPlot (.ok c.autoPlotR) := by
  unfold CMAES.autoPlot CMAES.autoPlotR
  cases c.plot with
  | none => exact .refl _
  | some p =>
    dsimp only
    split
    · exact .refl _
    · have hn : p.nextDataPointEvals = .panic .overflow ∨
          p.nextDataPointEvals = .ok p.nextDataPointEvalsR := by
        unfold Plot.nextDataPointEvals Plot.nextDataPointEvalsR
        cases p.lastDataPointEvals with
        | none => exact .inr rfl
        | some e =>
          dsimp only
          unfold usizeAdd
          split
          · exact .inl rfl
          · rw [wrapAdd_of_lt (by omega)]; exact .inr rfl
      rcases hn with hn | hn
      · rw [hn]; exact .inl rfl
      · rw [hn]; exact .refl _

theorem autoPrint_checked (c : CMAES n F R) : CheckedRel Eq c.autoPrint (.ok c.autoPrintR) := by
  unfold CMAES.autoPrint CMAES.autoPrintR
  cases c.printGapEvals with
  | none => exact .refl _
  | some gap =>
    dsimp only
    unfold usizeAdd
    split
    · exact .inl rfl
    · rw [wrapAdd_of_lt (by omega)]; exact .refl _

variable {env : Env n F R}

theorem nextInternal_checked (tree : SplitTree) (inds : List (EvaluatedPoint n F))
    (c : CMAES n F R) :
    CheckedRel Eq (c.nextInternal env tree inds) (c.nextInternalR env tree inds) := by
  unfold CMAES.nextInternal CMAES.nextInternalR
  refine .bind (update_checked ..) ?_
  rintro ⟨st, b⟩ _ - - rfl
  cases b with
  | false => exact .refl _
  | true =>
    simp only [if_true]
    rcases autoPlot_checked { c with state := st } with h | h
    · rw [h]; exact .inl rfl
    · obtain ⟨c1, h1, rfl⟩ := h.ok_right
      rw [h1]
      simp only [Outcome.ok_bind]
      rcases autoPrint_checked (CMAES.autoPlotR { c with state := st }) with h | h
      · rw [h]; exact .inl rfl
      · obtain ⟨c2, h2, rfl⟩ := h.ok_right
        rw [h2]
        exact .refl _

theorem next_checked (kind : EvalKind) (c : CMAES n F R) :
    CheckedRel Eq (c.next env kind) (c.nextR env kind) := by
  unfold CMAES.next CMAES.nextR
  refine .bind (.refl _) ?_
  rintro ⟨res, s⟩ _ - - rfl
  cases res with
  | none => exact .refl _
  | some inds =>
    dsimp only
    refine .bind (.refl _) ?_
    rintro hist _ - - rfl
    exact nextInternal_checked _ _ _

theorem runLoop_checked (kind : EvalKind) (fuel : Nat) (c : CMAES n F R) :
    CheckedRel Eq (c.runLoop env kind fuel) (c.runLoopR env kind fuel) := by
  induction fuel generalizing c with
  | zero => exact .refl _
  | succ fuel ih =>
    unfold CMAES.runLoop CMAES.runLoopR
    refine .bind (next_checked kind c) ?_
    rintro ⟨d, r⟩ _ - - rfl
    cases r with
    | some x => exact .refl _
    | none => exact ih d

theorem apply_checked (op : Op) (c : CMAES n F R) :
    CheckedRel Eq (c.apply env op) (c.applyR env op) := by
  cases op with
  | next kind => exact next_checked kind c
  | run kind =>
    unfold CMAES.apply CMAES.applyR CMAES.run CMAES.runR
    refine .bind (P := Eq) (.bind (runLoop_checked kind _ c) ?_) ?_
    · rintro a _ - - rfl; exact .refl _
    · rintro a _ - - rfl; exact .refl _
  | _ => exact .refl _

theorem applyAll_checked (ops : List Op) (c : CMAES n F R) :
    CheckedRel Eq (c.applyAll env ops) (c.applyAllR env ops) := by
  induction ops generalizing c with
  | nil => exact .refl _
  | cons op ops ih =>
    unfold CMAES.applyAll CMAES.applyAllR
    refine .bind (apply_checked op c) ?_
    rintro ⟨d, r⟩ _ - - rfl
    refine .bind (ih d) ?_
    rintro a _ - - rfl
    exact .refl _

/-- **C100, the two profiles.** Unless a build with overflow checks panics because of an overflow, a
release build does the same: every sequence of calls, from any state, has the same outcome, and
leaves the same `CMAES` with the same output. -/
theorem c100_same (c : CMAES n F R) (ops : List Op)
    (h : c.applyAll env ops ≠ .panic .overflow) : c.applyAllR env ops = c.applyAll env ops :=
  (applyAll_checked ops c).eq h

/-! ### The search of a release build -/

/-- The plot has at least one point. -/
def Filled (c : CMAES n F R) : Prop := ∀ p, c.plot = some p → ∃ k, 0 < k ∧ p.data.Aligned k

theorem filled_addPlotPoint {c : CMAES n F R} (h : Filled c) : Filled c.addPlotPoint := by
  intro p hp
  simp only [CMAES.addPlotPoint, Option.map_eq_some_iff] at hp
  obtain ⟨q, hq, rfl⟩ := hp
  obtain ⟨k, hk, ha⟩ := h q hq
  have e : q.addDataPoint c.sampler.functionEvals c.state c.history = q ∨
      (q.addDataPoint c.sampler.functionEvals c.state c.history).data =
        q.data.addDataPoint c.sampler.functionEvals c.state c.history := by
    unfold Plot.addDataPoint
    cases q.lastDataPointGeneration with
    | none => exact .inr rfl
    | some g =>
      dsimp only
      split
      · exact .inl rfl
      · exact .inr rfl
  rcases e with e | e
  · rw [e]; exact ⟨k, hk, ha⟩
  · rw [e]
    refine ⟨k + 1, by omega, ?_⟩
    constructor <;> simp [PlotData.addDataPoint, ha.functionEvals, ha.bestFunctionValue,
      ha.medianFunctionValue, ha.sigma, ha.axisRatio, ha.meanDimensions, ha.sqrtEigenvalues,
      ha.coordAxisScales]

/-- `c'`, with a plot that is not empty, is at the same place of the search as `c`, which neither
plots nor prints. -/
structure QuietFilled (c c' : CMAES n F R) : Prop extends QuietRun c c' where
  filled : Filled c'

namespace QuietFilled
variable {c c' : CMAES n F R}

theorem autoPlotR (h : QuietFilled c c') : QuietFilled c c'.autoPlotR := by
  have h1 : QuietFilled c c'.addPlotPoint :=
    ⟨h.toQuietRun.addPlotPointRight, filled_addPlotPoint h.filled⟩
  unfold CMAES.autoPlotR
  cases c'.plot with
  | none => exact h
  | some p =>
    dsimp only
    split
    · exact h1
    · split
      · exact h1
      · exact h

theorem autoPrintR (h : QuietFilled c c') : QuietFilled c c'.autoPrintR := by
  have h1 : QuietFilled c c'.printInfo := ⟨h.toQuietRun.printRight _, h.filled⟩
  unfold CMAES.autoPrintR
  cases c'.printGapEvals with
  | none => exact h
  | some g =>
    dsimp only
    split
    · exact ⟨⟨⟨h1.sampler, h1.parameters, h1.state, h1.history, h1.timeCreated, h1.steps,
        h1.clockReads⟩, h1.plot, h1.gap⟩, h1.filled⟩
    · split
      · exact h1
      · exact h

theorem checkTermination_plot {inds : List (EvaluatedPoint n F)} {d : CMAES n F R}
    {r : Option (TerminationData n F)} (h : c.checkTermination env inds = .ok (d, r)) :
    d.plot = c.plot := by
  unfold CMAES.checkTermination at h
  simp only [Outcome.bind_eq_ok, Outcome.ok.injEq, Prod.mk.injEq] at h
  obtain ⟨_, _, rfl, _⟩ := h
  rfl

theorem checkTermination (h : QuietFilled c c') (inds : List (EvaluatedPoint n F)) :
    Outcome.Rel (fun a b => QuietFilled a.1 b.1 ∧ b.2 = a.2) (c.checkTermination env inds)
      (c'.checkTermination env inds) := by
  unfold CMAES.checkTermination
  have fin : ∀ {d d' : CMAES n F R} (el : Nat), QuietFilled d d' →
      Outcome.Rel (fun a b => QuietFilled a.1 b.1 ∧ b.2 = a.2)
        (do
          let reasons ← ({ evals := d.sampler.functionEvals, elapsed := el
                           parameters := d.parameters, state := d.state, history := d.history
                           individuals := inds } : TerminationCheck n F).check env.medianNaN
          .ok (d, if reasons.isEmpty then none else some (d.terminationData reasons)))
        (do
          let reasons ← ({ evals := d'.sampler.functionEvals, elapsed := el
                           parameters := d'.parameters, state := d'.state, history := d'.history
                           individuals := inds } : TerminationCheck n F).check env.medianNaN
          .ok (d', if reasons.isEmpty then none else some (d'.terminationData reasons))) := by
    intro d d' el hd
    refine Outcome.Rel.bind (Outcome.Rel.of_eq ?_) ?_
    · rw [hd.sampler, hd.parameters, hd.state, hd.history]
    · rintro a _ rfl
      refine .ok ⟨hd, ?_⟩
      simp only [CMAES.terminationData, hd.state, hd.history]
  have hp : c'.parameters.termination.maxTime = c.parameters.termination.maxTime := by
    rw [h.parameters]
  cases hmt : c.parameters.termination.maxTime with
  | none =>
    simp only [hp, hmt, Option.isSome_none, Bool.false_eq_true, if_false, Nat.sub_self]
    exact fin 0 h
  | some m =>
    simp only [hp, hmt, Option.isSome_some, if_true, World.now, h.clockReads, h.timeCreated]
    have h1 : QuietFilled
        { c with world := { c.world with clockReads := c.world.clockReads + 1 } }
        { c' with world := { c'.world with clockReads := c.world.clockReads + 1 } } :=
      ⟨⟨⟨h.sampler, h.parameters, h.state, h.history, h.timeCreated, h.steps, rfl⟩, h.plot, h.gap⟩,
        h.filled⟩
    have h2 := fin (env.clock c.world.clockReads - c.timeCreated) h1
    simp only [h.timeCreated] at h2
    exact h2

theorem nextInternalR (h : QuietFilled c c') (tree : SplitTree)
    (inds : List (EvaluatedPoint n F)) :
    Outcome.Rel (fun a b => QuietFilled a.1 b.1 ∧ b.2 = a.2) (c.nextInternalR env tree inds)
      (c'.nextInternalR env tree inds) := by
  unfold CMAES.nextInternalR
  refine Outcome.Rel.bind (Outcome.Rel.of_eq ?_) ?_
  · rw [h.state, h.sampler, h.parameters]
  rintro ⟨st, b⟩ _ rfl
  have h1 : QuietFilled { c with state := st } { c' with state := st } :=
    ⟨⟨⟨h.sampler, h.parameters, rfl, h.history, h.timeCreated, h.steps, h.clockReads⟩, h.plot,
      h.gap⟩, h.filled⟩
  cases b with
  | false =>
    refine .ok ⟨h1, ?_⟩
    simp only [CMAES.terminationData, h.history]
  | true =>
    simp only [if_true]
    have e1 : CMAES.autoPlotR { c with state := st } = { c with state := st } := by
      unfold CMAES.autoPlotR; simp only [h.plot]
    have e2 : CMAES.autoPrintR { c with state := st } = { c with state := st } := by
      unfold CMAES.autoPrintR; simp only [h.gap]
    rw [e1, e2]
    exact checkTermination h1.autoPlotR.autoPrintR inds

theorem nextR {kind : EvalKind} (h : QuietFilled c c') :
    Outcome.Rel (fun a b => QuietFilled a.1 b.1 ∧ b.2 = a.2) (c.nextR env kind)
      (c'.nextR env kind) := by
  unfold CMAES.nextR
  simp only
  refine Outcome.Rel.bind (Outcome.Rel.of_eq ?_) ?_
  · rw [h.steps, h.state, h.sampler, h.parameters]
  rintro ⟨res, s⟩ _ rfl
  cases res with
  | none =>
    refine .ok ⟨⟨⟨⟨rfl, h.parameters, h.state, h.history, h.timeCreated, ?_, h.clockReads⟩,
      h.plot, h.gap⟩, h.filled⟩, ?_⟩
    · show _ + 1 = _ + 1
      rw [h.steps]
    · simp only [CMAES.terminationData, h.state, h.history]
  | some inds =>
    dsimp only
    refine Outcome.Rel.bind (Outcome.Rel.of_eq ?_) ?_
    · rw [h.history, h.parameters]
    rintro hist _ rfl
    rw [h.steps]
    refine nextInternalR ?_ _ inds
    exact ⟨⟨⟨rfl, h.parameters, h.state, rfl, h.timeCreated, rfl, h.clockReads⟩, h.plot, h.gap⟩,
      h.filled⟩

theorem runLoopR {kind : EvalKind} (fuel : Nat) {c c' : CMAES n F R} (h : QuietFilled c c') :
    Outcome.Rel (fun a b => QuietFilled a.1 b.1 ∧ b.2 = a.2)
      (c.runLoopR env kind fuel) (c'.runLoopR env kind fuel) := by
  induction fuel generalizing c c' with
  | zero => exact .diverge
  | succ fuel ih =>
    simp only [CMAES.runLoopR]
    refine Outcome.Rel.bind (nextR h) ?_
    rintro ⟨a, r⟩ ⟨b, r'⟩ ⟨h1, h2⟩
    simp only at h1 h2
    subst h2
    cases r' with
    | none => exact ih h1
    | some d => exact .ok ⟨h1, rfl⟩

theorem filled_printFinalInfo (h : Filled c) (l : List TerminationReason) :
    Filled (c.printFinalInfo l) := by
  unfold CMAES.printFinalInfo
  by_cases hne : c.sampler.functionEvals ≠ c.lastPrintEvals
  · simp only [if_pos hne]; exact h
  · simp only [if_neg hne]; exact h

theorem runInternal (h : QuietFilled c c') (d : TerminationData n F) :
    QuietFilled (c.runInternal d) (c'.runInternal d) := by
  refine ⟨h.toQuietRun.runInternal d, ?_⟩
  unfold CMAES.runInternal
  dsimp only
  split
  · exact filled_printFinalInfo (filled_addPlotPoint h.filled) _
  · exact filled_addPlotPoint h.filled

theorem applyR (op : Op) (h : QuietFilled c c') :
    Outcome.Rel (fun a b => QuietFilled a.1 b.1 ∧ b.2 = a.2) (c.applyR env op)
      (c'.applyR env op) := by
  cases op with
  | next k => exact nextR h
  | run k =>
    unfold CMAES.applyR CMAES.runR
    refine Outcome.Rel.bind (P := fun a b => QuietFilled a.1 b.1 ∧ b.2 = a.2)
      (Outcome.Rel.bind (runLoopR _ h) ?_) ?_
    · rintro ⟨a, d⟩ ⟨b, d'⟩ ⟨h1, h2⟩
      simp only at h1 h2
      subst h2
      exact .ok ⟨h1.runInternal _, rfl⟩
    · rintro ⟨a, d⟩ ⟨b, d'⟩ ⟨h1, h2⟩
      simp only at h1 h2
      subst h2
      exact .ok ⟨h1, rfl⟩
  | addPlotPoint => exact .ok ⟨⟨h.toQuietRun.addPlotPoint, filled_addPlotPoint h.filled⟩, rfl⟩
  | clearPlot =>
    simp only [CMAES.applyR, CMAES.apply, CMAES.clearPlot]
    rw [h.plot]
    cases hp : c'.plot with
    | none => exact .ok ⟨h, rfl⟩
    | some p =>
      obtain ⟨k, hk, ha⟩ := h.filled p hp
      obtain ⟨d', h1, h2⟩ := clear_eq ha hk
      simp only [Plot.clear, h1, Outcome.ok_bind]
      refine .ok ⟨⟨⟨⟨h.sampler, h.parameters, h.state, h.history, h.timeCreated, h.steps,
        h.clockReads⟩, h.plot, h.gap⟩, ?_⟩, rfl⟩
      intro q hq
      obtain rfl := Option.some.inj hq
      exact ⟨1, by omega, h2.aligned ha hk⟩
  | printInitialInfo => exact .ok ⟨⟨h.toQuietRun.print _ _, h.filled⟩, rfl⟩
  | printInfo => exact .ok ⟨⟨h.toQuietRun.print _ _, h.filled⟩, rfl⟩
  | printFinalInfo l =>
    exact .ok ⟨⟨(h.toQuietRun.printFinalLeft l).printFinalRight l,
      filled_printFinalInfo h.filled l⟩, rfl⟩
  | printRunInfo k => exact .ok ⟨⟨h.toQuietRun.print _ _, h.filled⟩, rfl⟩

theorem applyAllR (ops : List Op) {c c' : CMAES n F R} (h : QuietFilled c c') :
    Outcome.Rel (fun a b => QuietFilled a.1 b.1 ∧ b.2 = a.2) (c.applyAllR env ops)
      (c'.applyAllR env ops) := by
  induction ops generalizing c c' with
  | nil => exact .ok ⟨h, rfl⟩
  | cons op ops ih =>
    simp only [CMAES.applyAllR]
    refine Outcome.Rel.bind (applyR op h) ?_
    rintro ⟨a, r⟩ ⟨b, r'⟩ ⟨h1, h2⟩
    simp only at h1 h2
    subst h2
    refine Outcome.Rel.bind (ih h1) ?_
    rintro ⟨a', r⟩ ⟨b', r''⟩ ⟨h3, h4⟩
    simp only at h3 h4
    subst h4
    exact .ok ⟨h3, rfl⟩

end QuietFilled

theorem filled_create (w : World n F) (obj : Obj n F) (o : Options n F) :
    Filled (CMAES.create env w obj o) := by
  have key : ∀ p, (CMAES.create env w obj o).plot = some p → p.data.Aligned 1 := by
    intro p hp
    have e : (CMAES.create env w obj o).plot = o.plotOptions.map fun po =>
        (Plot.new po o.mode).addDataPoint 0 (State.new o.initialMean o.initialStepSize)
          History.new := by
      unfold CMAES.create
      dsimp only
      split <;> simp only [CMAES.printInitialInfo, CMAES.print, CMAES.addPlotPoint,
        Option.map_map] <;> rfl
    rw [e, Option.map_eq_some_iff] at hp
    obtain ⟨po, -, rfl⟩ := hp
    constructor <;> first | rfl | (intro i; rfl)
  exact fun p hp => ⟨1, by omega, key p hp⟩

variable [FltLaws F] {w w' : World n F} {obj : Obj n F} {o : Options n F}
  {po : Option PlotOptions} {pg : Option Nat} {c0 c0' : CMAES n F R}

theorem quietFilled_new (hw : w'.steps = w.steps ∧ w'.clockReads = w.clockReads)
    (h0 : CMAES.new env w obj { o with plotOptions := none, printGapEvals := none } = .ok c0)
    (h0' : CMAES.new env w' obj { o with plotOptions := po, printGapEvals := pg } = .ok c0') :
    QuietFilled c0 c0' := by
  obtain ⟨s, -⟩ := sameRun_of_plotting (po := po) (pg := pg) hw h0 h0' (.refl _) (.refl _) rfl
  refine ⟨⟨s, ?_, ?_⟩, ?_⟩
  · rw [(new_eq_ok h0).2]; rfl
  · rw [(new_eq_ok h0).2]; rfl
  · rw [(new_eq_ok h0').2]; exact filled_create _ _ _

/-- **C100, the search.** In a release build with any plot and print settings the search is that of
the build with overflow checks and without plot and printing, unless the latter panics because of an
overflow: the same calls have the same outcome (result, panic or no end), return the same data and
lead to the same search state, history and objective calls. In particular no gap between plot points
or printed rows, however large, makes a release build panic or influences its search. -/
theorem c100_search (hw : w'.steps = w.steps ∧ w'.clockReads = w.clockReads)
    (h0 : CMAES.new env w obj { o with plotOptions := none, printGapEvals := none } = .ok c0)
    (h0' : CMAES.new env w' obj { o with plotOptions := po, printGapEvals := pg } = .ok c0')
    (ops : List Op) (h : c0.applyAll env ops ≠ .panic .overflow) :
    Outcome.Rel (fun a b => b.2 = a.2 ∧ b.1.sampler = a.1.sampler ∧ b.1.state = a.1.state ∧
        b.1.history = a.1.history ∧ b.1.parameters = a.1.parameters)
      (c0.applyAll env ops) (c0'.applyAllR env ops) := by
  have h1 := (quietFilled_new hw h0 h0').applyAllR (env := env) ops
  rw [c100_same c0 ops h] at h1
  refine h1.mono ?_
  rintro a b ⟨h1, h2⟩
  exact ⟨h2, h1.sampler, h1.state, h1.history, h1.parameters⟩

/-- **C100, panics.** If calls of the API make a release build panic, then the search without plot and
printing reaches a state outside `CanStep`, which without gaps means: a constraint panics, or
`2^30 - 1` generations have been completed, or infinite values make a median NaN. -/
theorem c100_panic (hw : w'.steps = w.steps ∧ w'.clockReads = w.clockReads)
    (h0 : CMAES.new env w obj { o with plotOptions := none, printGapEvals := none } = .ok c0)
    (h0' : CMAES.new env w' obj { o with plotOptions := po, printGapEvals := pg } = .ok c0')
    {ops : List Op} {p : Panic} (h : c0'.applyAllR env ops = .panic p) :
    ∃ u c1, History.Of env obj { o with plotOptions := none, printGapEvals := none } u c1 ∧
      ¬ ((∀ k, o.constraints = some k → ∀ x : Vec n F, ∃ b, k (List.ofFn x) = .ok b) ∧
        c1.generation < 2 ^ 30 - 1 ∧
        ((∀ l, ∃ v, env.medianNaN l = .ok v) ∨ ∀ log x, Flt.isInf (obj.f log x) = false)) := by
  have key : ∃ q, c0.applyAll env ops = .panic q := by
    by_cases hq : c0.applyAll env ops = .panic .overflow
    · exact ⟨_, hq⟩
    · have h1 := c100_search hw h0 h0' ops hq
      rw [h] at h1
      cases hx : c0.applyAll env ops with
      | panic q => exact ⟨q, rfl⟩
      | ok a => rw [hx] at h1; cases h1
      | diverge => rw [hx] at h1; cases h1
  obtain ⟨q, hq⟩ := key
  obtain ⟨u, c1, hc, hn⟩ := c26_ops ⟨w, c0, h0, .refl _⟩ hq
  refine ⟨u, c1, hc, fun ⟨a, b, m⟩ => hn ⟨a, b, ?_, ?_, m⟩⟩
  · intro po hpo; simp at hpo
  · intro g hg; simp at hg

/-! ### Gaps that wrap around -/

/-- After `k` generations the plot has a point for every generation. -/
structure EveryGeneration (po : PlotOptions) (P k : Nat) (c : CMAES n F R) (p : Plot n F) : Prop where
  plot : c.plot = some p
  options : p.options = po
  lastEvals : p.lastDataPointEvals = some (k * P)
  lastGeneration : p.lastDataPointGeneration = some k
  generation : c.state.generation = k
  evals : c.sampler.functionEvals = k * P
  population : c.sampler.populationSize = P
  points : p.data.functionEvals = (List.range (k + 1)).map (· * P)

omit [FltLaws F] in
theorem everyGeneration_update {eigen : Mat n F → Option (Mat n F × Vec n F)} {tree : SplitTree}
    {evals : Nat} {p : Parameters F} {inds : List (EvaluatedPoint n F)} {s st : State n F}
    (h : s.updateR eigen tree evals p inds = .ok (st, true)) :
    st.generation = s.generation + 1 := by
  unfold State.updateR at h
  simp only [Outcome.bind_eq_ok] at h
  obtain ⟨yw, -, rm, -, h⟩ := h
  generalize s.cov.setCov _ _ _ = q at h
  obtain ⟨cov, ok⟩ := q
  cases ok with
  | true =>
    simp only [if_true, Outcome.ok.injEq, Prod.mk.injEq, and_true] at h
    rw [← h]
  | false => simp at h

omit [FltLaws F] in
theorem autoPrintR_keeps (c : CMAES n F R) : c.autoPrintR.plot = c.plot ∧
    c.autoPrintR.state = c.state ∧ c.autoPrintR.sampler = c.sampler := by
  unfold CMAES.autoPrintR
  cases c.printGapEvals with
  | none => exact ⟨rfl, rfl, rfl⟩
  | some g =>
    dsimp only
    split
    · exact ⟨rfl, rfl, rfl⟩
    · split <;> exact ⟨rfl, rfl, rfl⟩

omit [FltLaws F] in
theorem checkTermination_keeps {c c' : CMAES n F R} {inds : List (EvaluatedPoint n F)}
    {r : Option (TerminationData n F)} (h : c.checkTermination env inds = .ok (c', r)) :
    c'.plot = c.plot ∧ c'.state = c.state ∧ c'.sampler = c.sampler := by
  unfold CMAES.checkTermination at h
  simp only [Outcome.bind_eq_ok] at h
  obtain ⟨rs, -, h⟩ := h
  simp only [Outcome.ok.injEq, Prod.mk.injEq] at h
  rw [← h.1]
  exact ⟨rfl, rfl, rfl⟩

omit [FltLaws F] in
/-- A gap that wraps around is no gap. -/
theorem autoPlotR_wrap {po : PlotOptions} {P k : Nat} {c : CMAES n F R} {p : Plot n F}
    (hp : c.plot = some p) (ho : p.options = po) (hl : p.lastDataPointEvals = some (k * P))
    (hgen : c.state.generation = k + 1) (he : c.sampler.functionEvals = (k + 1) * P)
    (hg : po.minGapEvals < 2 ^ 64) (hw : 2 ^ 64 ≤ po.minGapEvals + P) :
    c.autoPlotR = c.addPlotPoint := by
  unfold CMAES.autoPlotR
  simp only [hp]
  by_cases h1 : c.state.generation ≤ 1
  · rw [if_pos h1]
  · rw [if_neg h1, if_pos]
    have hk : P ≤ k * P := Nat.le_mul_of_pos_left P (by omega)
    unfold Plot.nextDataPointEvalsR wrapAdd
    rw [hl, he, ho, Nat.add_mul]
    dsimp only
    have := Nat.mod_eq_sub_mod (a := k * P + po.minGapEvals) (b := 2 ^ 64) (by omega)
    rw [this]
    refine (Nat.mod_le _ _).trans ?_
    omega

theorem everyGeneration_next {po : PlotOptions} {P k : Nat} {kind : EvalKind} {c c' : CMAES n F R}
    {p : Plot n F} (i : EveryGeneration po P k c p) (hg : po.minGapEvals < 2 ^ 64)
    (hw : 2 ^ 64 ≤ po.minGapEvals + P) (h : c.nextR env kind = .ok (c', none)) :
    ∃ p', EveryGeneration po P (k + 1) c' p' := by
  unfold CMAES.nextR at h
  simp only [Outcome.bind_eq_ok] at h
  obtain ⟨⟨res, s⟩, hs, h⟩ := h
  obtain ⟨_, _, _, _, hs', hc⟩ := sample_cases hs
  rcases hc with ⟨rfl, -⟩ | ⟨ps, inds, rfl, -, -, he⟩
  · simp at h
  dsimp only at h
  simp only [Outcome.bind_eq_ok] at h
  obtain ⟨hist, -, h⟩ := h
  unfold CMAES.nextInternalR at h
  simp only [Outcome.bind_eq_ok] at h
  obtain ⟨⟨st, b⟩, hu, h⟩ := h
  cases b with
  | false => simp at h
  | true =>
    have hgen := everyGeneration_update hu
    simp only [i.generation] at hgen
    simp only [if_true] at h
    have hpop : s.populationSize = P := by rw [hs', i.population]
    have hev : s.functionEvals = (k + 1) * P := by
      rw [he, i.evals, i.population, Nat.add_mul, Nat.one_mul]
    obtain ⟨k1, k2, k3⟩ := checkTermination_keeps h
    obtain ⟨k4, k5, k6⟩ := autoPrintR_keeps (CMAES.autoPlotR
      { c with sampler := s, state := st, history := hist,
               world := { c.world with steps := c.world.steps + 1 } })
    have ha := autoPlotR_wrap (k := k) (P := P) (po := po) (p := p)
      (c := { c with sampler := s, state := st, history := hist,
                     world := { c.world with steps := c.world.steps + 1 } })
      i.plot i.options i.lastEvals hgen hev hg hw
    rw [k4, ha] at k1
    rw [k5, ha] at k2
    rw [k6, ha] at k3
    simp only [CMAES.addPlotPoint, i.plot, Option.map_some] at k1 k2 k3
    have hadd : p.addDataPoint s.functionEvals st hist =
        { p with data := p.data.addDataPoint s.functionEvals st hist
                 lastDataPointEvals := some s.functionEvals
                 lastDataPointGeneration := some st.generation } := by
      unfold Plot.addDataPoint
      rw [i.lastGeneration, hgen]
      simp
    rw [hadd] at k1
    refine ⟨_, k1, i.options, ?_, ?_, ?_, ?_, ?_, ?_⟩
    · rw [hev]
    · rw [hgen]
    · rw [k2, hgen]
    · rw [k3, hev]
    · rw [k3, hpop]
    · simp only [PlotData.addDataPoint, i.points, hev]
      rw [List.range_succ (n := k + 1), List.map_append]
      rfl

theorem everyGeneration_new {po : PlotOptions} (h0 : CMAES.new env w obj o = .ok c0)
    (hpo : o.plotOptions = some po) : ∃ p, EveryGeneration po o.populationSize 0 c0 p := by
  rw [(new_eq_ok h0).2]
  have e : (CMAES.create env w obj o).plot = o.plotOptions.map fun po =>
      (Plot.new po o.mode).addDataPoint 0 (State.new o.initialMean o.initialStepSize)
        History.new := by
    unfold CMAES.create
    dsimp only
    split <;> simp only [CMAES.printInitialInfo, CMAES.print, CMAES.addPlotPoint,
      Option.map_map] <;> rfl
  have e2 : (CMAES.create env w obj o).state = State.new o.initialMean o.initialStepSize ∧
      (CMAES.create env w obj o).sampler.functionEvals = 0 ∧
      (CMAES.create env w obj o).sampler.populationSize = o.populationSize := by
    unfold CMAES.create
    dsimp only
    split <;> exact ⟨rfl, rfl, rfl⟩
  rw [hpo, Option.map_some] at e
  refine ⟨_, e, rfl, ?_, rfl, ?_, ?_, e2.2.2, ?_⟩
  · rw [Nat.zero_mul]; rfl
  · rw [e2.1]; rfl
  · rw [e2.2.1, Nat.zero_mul]
  · show [0] = [0 * o.populationSize]
    rw [Nat.zero_mul]

/-- **C100, what wraps around.** If the gap between plot points is within a population of the largest
integer (`usize::MAX` stands for "never"), then a release build does not skip generations: after any
calls of `next` and `next_parallel` that do not end the search the plot has a point for every one of
them. With overflow checks the second of the calls panics (C26). -/
theorem c100_wrap {po : PlotOptions} (h0 : CMAES.new env w obj o = .ok c0)
    (hpo : o.plotOptions = some po) (hg : po.minGapEvals < 2 ^ 64)
    (hw : 2 ^ 64 ≤ po.minGapEvals + o.populationSize) (kinds : List EvalKind) {c : CMAES n F R}
    (h : c0.applyAllR env (kinds.map Op.next) = .ok (c, kinds.map fun _ => none)) :
    ∃ p, c.plot = some p ∧
      p.data.functionEvals = (List.range (kinds.length + 1)).map (· * o.populationSize) := by
  have key : ∀ (ks : List EvalKind) (k : Nat) (d d' : CMAES n F R) (p : Plot n F),
      EveryGeneration po o.populationSize k d p →
      d.applyAllR env (ks.map Op.next) = .ok (d', ks.map fun _ => none) →
      ∃ p', EveryGeneration po o.populationSize (k + ks.length) d' p' := by
    intro ks
    induction ks with
    | nil =>
      intro k d d' p i h
      simp only [List.map_nil, CMAES.applyAllR, Outcome.ok.injEq, Prod.mk.injEq, and_true] at h
      subst h
      exact ⟨p, i⟩
    | cons kd ks ih =>
      intro k d d' p i h
      simp only [List.map_cons, CMAES.applyAllR, Outcome.bind_eq_ok] at h
      obtain ⟨⟨e, r⟩, h1, ⟨e', rs⟩, h2, h⟩ := h
      simp only [Outcome.ok.injEq, Prod.mk.injEq, List.cons.injEq] at h h2
      obtain ⟨rfl, rfl, rfl⟩ := h
      obtain ⟨p', i'⟩ := everyGeneration_next i hg hw h1
      obtain ⟨p'', i''⟩ := ih _ _ _ _ i' h2
      refine ⟨p'', ?_⟩
      rw [List.length_cons, Nat.add_comm ks.length, ← Nat.add_assoc]
      exact i''
  obtain ⟨p, i⟩ := everyGeneration_new h0 hpo
  obtain ⟨p', i'⟩ := key kinds 0 c0 c p i h
  refine ⟨p', i'.plot, ?_⟩
  rw [i'.points, Nat.zero_add]

section Examples
open Witness

/-- C100: three generations, the last of them by `run`, that do not overflow (`c100_same`), with a
plot and printed rows. -/
example : ((CMAES.create (wenv 2) World.init sphere
      { opts with maxGenerations := some 4, plotOptions := some ⟨3, true⟩,
                  printGapEvals := some 5 }).applyAll (wenv 2)
      [.next .par, .clearPlot, .next .seq, .run .seq]).check
        (fun x => x.2.map (fun d => d.isSome) == [false, false, false, true] &&
          x.1.world.out.length > 4) = true := by decide +kernel

/-- C100: a gap that no generation is meant to reach: the build with overflow checks panics in the
second generation, the release build goes on (`c100_search`) and stores a point in every generation
(`c100_wrap`). -/
example :
    (match (CMAES.create (wenv 2) World.init sphere
        { opts with plotOptions := some ⟨2 ^ 64 - 1, true⟩ }).applyAll (wenv 2)
        ([.seq, .par, .seq].map Op.next) with
      | .panic .overflow => true
      | _ => false) = true ∧
    ((CMAES.create (wenv 2) World.init sphere
        { opts with plotOptions := some ⟨2 ^ 64 - 1, true⟩ }).applyAllR (wenv 2)
        ([.seq, .par, .seq].map Op.next)).check
      (fun x => x.2.map (fun d => d.isSome) == [false, false, false] &&
        (match x.1.plot with
          | some p => p.data.functionEvals == [0, 4, 8, 12]
          | none => false)) = true ∧
    ((CMAES.create (wenv 2) World.init sphere
        { opts with plotOptions := none, printGapEvals := none }).applyAll (wenv 2)
        ([.seq, .par, .seq].map Op.next)).check
      (fun x => x.2.map (fun d => d.isSome) == [false, false, false]) = true ∧
    (2 : Nat) ^ 64 ≤ (2 ^ 64 - 1) + opts.populationSize := by
  refine ⟨by decide +kernel, by decide +kernel, by decide +kernel, by decide⟩

/-- C100: a release build that panics (`c100_panic`): a constraint does. -/
example : (match (CMAES.create (wenv 2) World.init sphere
        { opts with constraints := some fun _ => .panic .other }).applyAllR (wenv 2)
        [.next .seq] with
      | .panic _ => true
      | _ => false) = true := by decide +kernel

end Examples

end Cmaes
