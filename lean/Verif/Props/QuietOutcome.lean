import Verif.Props.NoPanic

/-!
# C15: plotting and printing, including panics
-/

set_option linter.unusedSectionVars false

namespace Cmaes
variable {n : Nat} {F R : Type} [Flt F]

/-- The same outcome up to `P`, unless the second computation panics because of an overflow. -/
def RelOr {α β : Type} (P : α → β → Prop) (x : Outcome α) (y : Outcome β) : Prop :=
  y = .panic .overflow ∨ Outcome.Rel P x y

namespace RelOr
variable {α β γ δ : Type} {P : α → β → Prop} {Q : γ → δ → Prop}

theorem ok {a : α} {b : β} (h : P a b) : RelOr P (.ok a) (.ok b) := .inr (.ok h)

theorem bind {x : Outcome α} {y : Outcome β} {f : α → Outcome γ} {g : β → Outcome δ}
    (h : RelOr P x y) (hf : ∀ a b, x = .ok a → y = .ok b → P a b → RelOr Q (f a) (g b)) :
    RelOr Q (x >>= f) (y >>= g) := by
  rcases h with rfl | h
  · exact .inl rfl
  · cases h with
    | ok h => exact hf _ _ rfl rfl h
    | panic p => exact .inr (.panic p)
    | diverge => exact .inr .diverge

theorem of_eq {x y : Outcome α} (h : x = y) : RelOr Eq x y := .inr (.of_eq h)

end RelOr

/-- `c'` is at the same place of the search as `c`, which neither plots nor prints. -/
structure QuietRun (c c' : CMAES n F R) : Prop extends SameRun c c' where
  plot : c.plot = none
  gap : c.printGapEvals = none

namespace QuietRun
variable {c c' : CMAES n F R} {env : Env n F R}

theorem print (h : QuietRun c c') (e e' : PrintEvent n F) :
    QuietRun (c.print e) (c'.print e') :=
  ⟨⟨h.sampler, h.parameters, h.state, h.history, h.timeCreated, h.steps, h.clockReads⟩,
    h.plot, h.gap⟩

theorem printRight (h : QuietRun c c') (e : PrintEvent n F) : QuietRun c (c'.print e) :=
  ⟨⟨h.sampler, h.parameters, h.state, h.history, h.timeCreated, h.steps, h.clockReads⟩,
    h.plot, h.gap⟩

theorem printLeft (h : QuietRun c c') (e : PrintEvent n F) : QuietRun (c.print e) c' :=
  ⟨⟨h.sampler, h.parameters, h.state, h.history, h.timeCreated, h.steps, h.clockReads⟩,
    h.plot, h.gap⟩

theorem addPlotPointRight (h : QuietRun c c') : QuietRun c c'.addPlotPoint :=
  ⟨⟨h.sampler, h.parameters, h.state, h.history, h.timeCreated, h.steps, h.clockReads⟩,
    h.plot, h.gap⟩

theorem addPlotPoint (h : QuietRun c c') : QuietRun c.addPlotPoint c'.addPlotPoint :=
  ⟨⟨h.sampler, h.parameters, h.state, h.history, h.timeCreated, h.steps, h.clockReads⟩,
    by show Option.map _ c.plot = none; rw [h.plot]; rfl, h.gap⟩

theorem printFinalLeft (h : QuietRun c c') (l : List TerminationReason) :
    QuietRun (c.printFinalInfo l) c' := by
  unfold CMAES.printFinalInfo
  by_cases hne : c.sampler.functionEvals ≠ c.lastPrintEvals
  · simp only [if_pos hne]; exact (h.printLeft _).printLeft _
  · simp only [if_neg hne]; exact h.printLeft _

theorem printFinalRight (h : QuietRun c c') (l : List TerminationReason) :
    QuietRun c (c'.printFinalInfo l) := by
  unfold CMAES.printFinalInfo
  by_cases hne : c'.sampler.functionEvals ≠ c'.lastPrintEvals
  · simp only [if_pos hne]; exact (h.printRight _).printRight _
  · simp only [if_neg hne]; exact h.printRight _

theorem runInternal (h : QuietRun c c') (d : TerminationData n F) :
    QuietRun (c.runInternal d) (c'.runInternal d) := by
  unfold CMAES.runInternal
  have h1 := h.addPlotPoint
  simp only [h1.gap, Option.isSome_none, Bool.false_eq_true, if_false]
  split
  · exact h1.printFinalRight _
  · exact h1

theorem usizeAdd_cases (a b : Nat) : usizeAdd a b = .panic .overflow ∨ usizeAdd a b = .ok (a + b) := by
  unfold usizeAdd
  split
  · exact .inl rfl
  · exact .inr rfl

theorem autoPlot (h : QuietRun c c') : RelOr QuietRun c.autoPlot c'.autoPlot := by
  have hc : c.autoPlot = .ok c := by unfold CMAES.autoPlot; rw [h.plot]
  rw [hc]
  unfold CMAES.autoPlot
  cases c'.plot with
  | none => exact .ok h
  | some p =>
    dsimp only
    split
    · exact .ok h.addPlotPointRight
    · have hn : p.nextDataPointEvals = .panic .overflow ∨ ∃ k, p.nextDataPointEvals = .ok k := by
        unfold Plot.nextDataPointEvals
        cases p.lastDataPointEvals with
        | none => exact .inr ⟨_, rfl⟩
        | some e => exact (usizeAdd_cases _ _).imp id fun h => ⟨_, h⟩
      rcases hn with hn | ⟨k, hn⟩
      · rw [hn]; exact .inl rfl
      · rw [hn]
        refine .ok ?_
        split
        · exact h.addPlotPointRight
        · exact h

theorem autoPrint (h : QuietRun c c') : RelOr QuietRun c.autoPrint c'.autoPrint := by
  have hc : c.autoPrint = .ok c := by unfold CMAES.autoPrint; rw [h.gap]
  rw [hc]
  unfold CMAES.autoPrint
  cases c'.printGapEvals with
  | none => exact .ok h
  | some g =>
    dsimp only
    rcases usizeAdd_cases c'.lastPrintEvals g with hn | hn
    · rw [hn]; exact .inl rfl
    · rw [hn]
      refine .ok ?_
      have h1 : QuietRun c c'.printInfo := h.printRight _
      split
      · exact ⟨⟨h1.sampler, h1.parameters, h1.state, h1.history, h1.timeCreated, h1.steps,
          h1.clockReads⟩, h1.plot, h1.gap⟩
      · split
        · exact h1
        · exact h

theorem checkTermination (h : QuietRun c c') (inds : List (EvaluatedPoint n F)) :
    RelOr (fun a b => QuietRun a.1 b.1 ∧ b.2 = a.2) (c.checkTermination env inds)
      (c'.checkTermination env inds) := by
  unfold CMAES.checkTermination
  have fin : ∀ {d d' : CMAES n F R} (el : Nat), QuietRun d d' →
      RelOr (fun a b => QuietRun a.1 b.1 ∧ b.2 = a.2)
        (do
          let reasons ← ({ evals := d.sampler.functionEvals, elapsed := el
                           parameters := d.parameters, state := d.state, history := d.history
                           individuals := inds } : TerminationCheck n F).check env.medianNaN
          .ok (d, if reasons.isEmpty then none else some (d.terminationData reasons)))
        (do
          let reasons ← ({ evals := d'.sampler.functionEvals, elapsed := el
                           parameters := d'.parameters, state := d'.state, history := d'.history
                           individuals := inds } : TerminationCheck n F).check env.medianNaN
          .ok (d', if reasons.isEmpty then none else some (d'.terminationData reasons))) := by
    intro d d' el hd
    refine RelOr.bind (RelOr.of_eq ?_) ?_
    · rw [hd.sampler, hd.parameters, hd.state, hd.history]
    · rintro a _ - - rfl
      refine .ok ⟨hd, ?_⟩
      simp only [CMAES.terminationData, hd.state, hd.history]
  have hp : c'.parameters.termination.maxTime = c.parameters.termination.maxTime := by
    rw [h.parameters]
  cases hmt : c.parameters.termination.maxTime with
  | none =>
    simp only [hp, hmt, Option.isSome_none, Bool.false_eq_true, if_false, Nat.sub_self]
    exact fin 0 h
  | some m =>
    simp only [hp, hmt, Option.isSome_some, if_true, World.now, h.clockReads,
      h.timeCreated]
    have h1 : QuietRun
        { c with world := { c.world with clockReads := c.world.clockReads + 1 } }
        { c' with world := { c'.world with clockReads := c.world.clockReads + 1 } } :=
      ⟨⟨h.sampler, h.parameters, h.state, h.history, h.timeCreated, h.steps, rfl⟩, h.plot, h.gap⟩
    have h2 := fin (env.clock c.world.clockReads - c.timeCreated) h1
    simp only [h.timeCreated] at h2
    exact h2

theorem nextInternal (h : QuietRun c c') (tree : SplitTree) (inds : List (EvaluatedPoint n F)) :
    RelOr (fun a b => QuietRun a.1 b.1 ∧ b.2 = a.2) (c.nextInternal env tree inds)
      (c'.nextInternal env tree inds) := by
  unfold CMAES.nextInternal
  refine RelOr.bind (RelOr.of_eq ?_) ?_
  · rw [h.state, h.sampler, h.parameters]
  rintro ⟨st, b⟩ _ - - rfl
  have h1 : QuietRun { c with state := st } { c' with state := st } :=
    ⟨⟨h.sampler, h.parameters, rfl, h.history, h.timeCreated, h.steps, h.clockReads⟩, h.plot, h.gap⟩
  cases b with
  | false =>
    refine .ok ⟨h1, ?_⟩
    simp only [CMAES.terminationData, h.history]
  | true =>
    simp only [if_true]
    refine RelOr.bind h1.autoPlot ?_
    intro c1 c1' _ _ h2
    refine RelOr.bind h2.autoPrint ?_
    intro c2 c2' _ _ h3
    exact checkTermination h3 inds

theorem next {kind : EvalKind} (h : QuietRun c c') :
    RelOr (fun a b => QuietRun a.1 b.1 ∧ b.2 = a.2) (c.next env kind) (c'.next env kind) := by
  unfold CMAES.next
  simp only
  refine RelOr.bind (RelOr.of_eq ?_) ?_
  · rw [h.steps, h.state, h.sampler, h.parameters]
  rintro ⟨res, s⟩ _ - - rfl
  cases res with
  | none =>
    refine .ok ⟨⟨⟨rfl, h.parameters, h.state, h.history, h.timeCreated, ?_, h.clockReads⟩,
      h.plot, h.gap⟩, ?_⟩
    · show _ + 1 = _ + 1
      rw [h.steps]
    · simp only [CMAES.terminationData, h.state, h.history]
  | some inds =>
    dsimp only
    refine RelOr.bind (RelOr.of_eq ?_) ?_
    · rw [h.history, h.parameters]
    rintro hist _ - - rfl
    rw [h.steps]
    refine nextInternal ?_ _ inds
    exact ⟨⟨rfl, h.parameters, h.state, rfl, h.timeCreated, rfl, h.clockReads⟩, h.plot, h.gap⟩

theorem runLoop {kind : EvalKind} (fuel : Nat) {c c' : CMAES n F R} (h : QuietRun c c') :
    RelOr (fun a b => QuietRun a.1 b.1 ∧ b.2 = a.2)
      (c.runLoop env kind fuel) (c'.runLoop env kind fuel) := by
  induction fuel generalizing c c' with
  | zero => exact .inr .diverge
  | succ fuel ih =>
    simp only [CMAES.runLoop]
    refine RelOr.bind (next h) ?_
    rintro ⟨a, r⟩ ⟨b, r'⟩ - - ⟨h1, h2⟩
    simp only at h1 h2
    subst h2
    cases r' with
    | none => exact ih h1
    | some d => exact .ok ⟨h1, rfl⟩

theorem run {kind : EvalKind} (h : QuietRun c c') :
    RelOr (fun a b => QuietRun a.1 b.1 ∧ b.2 = a.2) (c.run env kind) (c'.run env kind) := by
  unfold CMAES.run
  refine RelOr.bind (runLoop _ h) ?_
  rintro ⟨a, d⟩ ⟨b, d'⟩ - - ⟨h1, h2⟩
  simp only at h1 h2
  subst h2
  exact .ok ⟨h1.runInternal _, rfl⟩

variable [FltLaws F] {obj : Obj n F} {o : Options n F} {t : List (NextCall n F)}

theorem apply (op : Op) (h : QuietRun c c') (hr : History.Of env obj o t c') :
    RelOr (fun a b => QuietRun a.1 b.1 ∧ b.2 = a.2) (c.apply env op) (c'.apply env op) := by
  cases op with
  | next k => exact next h
  | run k =>
    refine RelOr.bind (run h) ?_
    rintro ⟨a, d⟩ ⟨b, d'⟩ - - ⟨h1, h2⟩
    simp only at h1 h2
    subst h2
    exact .ok ⟨h1, rfl⟩
  | addPlotPoint => exact .ok ⟨h.addPlotPoint, rfl⟩
  | clearPlot =>
    obtain ⟨x, hx⟩ := c26_quiet (op := .clearPlot) hr (by simp [Op.Quiet])
    rw [hx]
    simp only [CMAES.apply, CMAES.clearPlot] at hx ⊢
    rw [h.plot]
    cases hp : c'.plot with
    | none =>
      rw [hp] at hx
      obtain rfl := Outcome.ok.inj hx
      exact .ok ⟨h, rfl⟩
    | some p =>
      rw [hp] at hx
      simp only [Outcome.bind_eq_ok, Outcome.ok.injEq] at hx
      obtain ⟨_, ⟨q, _, rfl⟩, rfl⟩ := hx
      exact .ok ⟨⟨⟨h.sampler, h.parameters, h.state, h.history, h.timeCreated, h.steps,
        h.clockReads⟩, h.plot, h.gap⟩, rfl⟩
  | printInitialInfo => exact .ok ⟨h.print _ _, rfl⟩
  | printInfo => exact .ok ⟨h.print _ _, rfl⟩
  | printFinalInfo l => exact .ok ⟨(h.printFinalLeft l).printFinalRight l, rfl⟩
  | printRunInfo k => exact .ok ⟨h.print _ _, rfl⟩

theorem applyAll (ops : List Op) {t : List (NextCall n F)} {c c' : CMAES n F R}
    (h : QuietRun c c') (hr : History.Of env obj o t c') :
    RelOr (fun a b => QuietRun a.1 b.1 ∧ b.2 = a.2) (c.applyAll env ops) (c'.applyAll env ops) := by
  induction ops generalizing t c c' with
  | nil => exact .ok ⟨h, rfl⟩
  | cons op ops ih =>
    simp only [CMAES.applyAll]
    refine RelOr.bind (apply op h hr) ?_
    rintro ⟨a, r⟩ ⟨b, r'⟩ - hb ⟨h1, h2⟩
    simp only at h1 h2
    subst h2
    obtain ⟨t', ht', _⟩ := apply_exec hb
    obtain ⟨w, c0, h0, hex⟩ := hr
    refine RelOr.bind (ih h1 ⟨w, c0, h0, hex.trans ht'⟩) ?_
    rintro ⟨a', r⟩ ⟨b', r''⟩ - - ⟨h3, h4⟩
    simp only at h3 h4
    subst h4
    exact .ok ⟨h3, rfl⟩

end QuietRun

section
variable [FltLaws F] {env : Env n F R} {w w' : World n F} {obj : Obj n F} {o : Options n F}
  {po : Option PlotOptions} {pg : Option Nat} {c0 c0' : CMAES n F R}

/-- **C15, all outcomes.** Take the same user calls on a `CMAES` without plot and automatic printing
and on one that differs in these options only. Either the second one panics because a gap makes the
next plot or print threshold overflow, or both have the same outcome: both panic in the same way,
or neither ends, or both return the same data, with equal search state, history and
objective calls. -/
theorem c15_outcome (hw : w'.steps = w.steps ∧ w'.clockReads = w.clockReads)
    (h0 : CMAES.new env w obj { o with plotOptions := none, printGapEvals := none } = .ok c0)
    (h0' : CMAES.new env w' obj { o with plotOptions := po, printGapEvals := pg } = .ok c0')
    (ops : List Op) :
    c0'.applyAll env ops = .panic .overflow ∨
    Outcome.Rel (fun a b => b.2 = a.2 ∧ b.1.sampler = a.1.sampler ∧ b.1.state = a.1.state ∧
        b.1.history = a.1.history ∧ b.1.parameters = a.1.parameters)
      (c0.applyAll env ops) (c0'.applyAll env ops) := by
  obtain ⟨s, -⟩ := sameRun_of_plotting (po := po) (pg := pg) hw h0 h0' (.refl _) (.refl _) rfl
  have hq : QuietRun c0 c0' := by
    refine ⟨s, ?_, ?_⟩ <;> rw [(new_eq_ok h0).2] <;> rfl
  refine (QuietRun.applyAll ops hq ⟨w', c0', h0', .refl _⟩).imp id fun h => h.mono ?_
  rintro a b ⟨h1, h2⟩
  exact ⟨h2, h1.sampler, h1.state, h1.history, h1.parameters⟩

end

section Examples
open Witness

/-- C15: a user whose calls return, with and without plot and printing. -/
example :
    ((CMAES.create (wenv 2) World.init sphere
      { opts with maxGenerations := some 4, plotOptions := none, printGapEvals := none }).applyAll
      (wenv 2) [.next .par, .clearPlot, .run .seq]).check
        (fun x => x.2.map (fun d => d.isSome) == [false, false, true]) = true ∧
    ((CMAES.create (wenv 2) World.init sphere
      { opts with maxGenerations := some 4, plotOptions := some ⟨3, true⟩,
                  printGapEvals := some 5 }).applyAll (wenv 2) [.next .par, .clearPlot, .run .seq]).check
        (fun x => x.2.map (fun d => d.isSome) == [false, false, true] &&
          x.1.world.out.length > 4) = true := by
  refine ⟨by decide +kernel, by decide +kernel⟩

/-- C15: the panic that a plot can add. -/
example : (match (CMAES.create (wenv 2) World.init sphere
      { opts with plotOptions := some ⟨2 ^ 64 - 1, true⟩ }).applyAll (wenv 2)
      [.next .seq, .next .seq] with
    | .panic .overflow => true
    | _ => false) = true := by decide +kernel

end Examples

end Cmaes
