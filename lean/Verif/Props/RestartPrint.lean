import Verif.Spec.RestartPrint
import Verif.Props.Print
import Verif.Props.Restart

/-!
# C72: what a `Restarter` prints
-/

set_option linter.unusedSectionVars false

namespace Cmaes
open FltLaws
variable {n : Nat} {F R : Type} [Flt F] [FltLaws F] {env : Env n F R} {kind : EvalKind}
  {obj : Obj n F} {o : Options n F} {t : List (NextCall n F)} {c c' : CMAES n F R}

/-- The rows a `next` call prints. -/
theorem next_rows {r : Option (TerminationData n F)} (hn : c.next env kind = .ok (c', r)) :
    ∃ rows : List (PrintEvent n F), (∀ e ∈ rows, e.OfRun) ∧
      c'.world.out = c.world.out ++ rows := by
  obtain ⟨calls, hl⟩ := next_log hn
  obtain ⟨p1, p2⟩ := next_print hn hl
  by_cases hc : NextCall.Checked ⟨kind, calls, r⟩
  · have := p2 hc
    cases hg : c.printGapEvals with
    | none =>
      rw [hg] at this
      exact ⟨[], by simp, by simp [this.1]⟩
    | some gap =>
      rw [hg] at this
      simp only at this
      split at this
      · exact ⟨_, by simp [CMAES.infoRow, PrintEvent.OfRun], this.1⟩
      · refine ⟨_, ?_, this.2⟩
        split <;> simp [CMAES.infoRow, PrintEvent.OfRun]
  · exact ⟨[], by simp, by simp [(p1 hc).1]⟩

theorem runLoop_rows {fuel : Nat} {d : TerminationData n F}
    (hr : c.runLoop env kind fuel = .ok (c', d)) :
    ∃ rows : List (PrintEvent n F), (∀ e ∈ rows, e.OfRun) ∧
      c'.world.out = c.world.out ++ rows := by
  induction fuel generalizing c with
  | zero => simp [CMAES.runLoop] at hr
  | succ fuel ih =>
    simp only [CMAES.runLoop, Outcome.bind_eq_ok] at hr
    obtain ⟨⟨c1, r⟩, hn, hr⟩ := hr
    obtain ⟨rows, h1, h2⟩ := next_rows hn
    cases r with
    | some d1 =>
      simp only [Outcome.ok.injEq, Prod.mk.injEq] at hr
      obtain ⟨rfl, rfl⟩ := hr
      exact ⟨rows, h1, h2⟩
    | none =>
      obtain ⟨rows', h3, h4⟩ := ih hr
      refine ⟨rows ++ rows', fun e he => ?_, by rw [h4, h2, List.append_assoc]⟩
      rcases List.mem_append.mp he with he | he
      · exact h1 e he
      · exact h3 e he

/-- What `run` prints. -/
theorem run_rows (h : History.Of env obj o t c) {d : TerminationData n F}
    (hr : c.run env kind = .ok (c', d)) :
    ∃ rows : List (PrintEvent n F), (∀ e ∈ rows, e.OfRun) ∧
      (if o.printGapEvals = none then rows = []
        else ∃ e, rows.getLast? = some e ∧ e.IsFinalOf d.reasons c') ∧
      c'.world.out = c.world.out ++ rows := by
  by_cases hg : o.printGapEvals = none
  · exact ⟨[], by simp, by simp [hg], by simp [(c47_silent h hg).2 _ _ hr]⟩
  · simp only [hg, if_false]
    obtain ⟨e, h1, h2⟩ := c46_print h hg hr
    obtain ⟨u, s, c2, x1, _, _, _, x5⟩ := run_ok_internal hr
    obtain ⟨gs, fi, _⟩ := fresh_inv (h.trans x1)
    have hsome : c2.printGapEvals.isSome = true := by
      rw [fi.printGapEvals]; exact Option.isSome_iff_ne_none.mpr hg
    simp only [CMAES.run, Outcome.bind_eq_ok, Outcome.ok.injEq, Prod.mk.injEq] at hr
    obtain ⟨⟨c1, d1⟩, h3, h4, rfl⟩ := hr
    obtain ⟨rows, r1, r2⟩ := runLoop_rows h3
    have : ∃ more : List (PrintEvent n F), more ≠ [] ∧ (∀ e ∈ more, e.OfRun) ∧
        c'.world.out = c1.world.out ++ more := by
      have ss := sameSearch_runInternal c1 d1
      have ss' := sameSearch_runInternal c2 d1
      have hs1 : c1.printGapEvals.isSome = true := by
        rw [← ss.printGapEvals, h4, x5, ss'.printGapEvals, hsome]
      rw [← h4]
      unfold CMAES.runInternal
      simp only [CMAES.addPlotPoint, hs1, if_true]
      rw [out_printFinalInfo]
      refine ⟨_, ?_, ?_, List.append_assoc _ _ _⟩
      · simp
      · intro e he
        simp only [List.mem_append, List.mem_singleton] at he
        rcases he with he | rfl
        · split at he
          · simp only [List.mem_singleton] at he
            subst he
            trivial
          · simp at he
        · trivial
    obtain ⟨more, m1, m2, m3⟩ := this
    refine ⟨rows ++ more, fun e he => ?_, ⟨e, ?_, h2⟩, by rw [m3, r2, List.append_assoc]⟩
    · rcases List.mem_append.mp he with he | he
      · exact r1 e he
      · exact m2 e he
    · rw [m3, List.getLast?_append] at h1
      rw [List.getLast?_append]
      rw [List.getLast?_eq_some_getLast m1] at h1 ⊢
      exact h1

theorem configure_keeps {rng : RngOps R F} {st : Strategy F} {o o' : Options n F} {size : F}
    {r r' : R} (h : st.configure rng o size r = .ok (o', r')) :
    o'.seed = o.seed ∧ o'.printGapEvals = o.printGapEvals := by
  unfold Strategy.configure at h
  split at h
  · simp only [Outcome.ok.injEq, Prod.mk.injEq] at h
    obtain ⟨rfl, _⟩ := h
    exact ⟨rfl, rfl⟩
  · simp only [Outcome.bind_eq_ok, Outcome.ok.injEq, Prod.mk.injEq] at h
    obtain ⟨_, _, rfl, _⟩ := h
    exact ⟨rfl, rfl⟩
  · split at h
    · simp only [Outcome.ok.injEq, Prod.mk.injEq] at h
      obtain ⟨rfl, _⟩ := h
      exact ⟨rfl, rfl⟩
    · simp only [Outcome.bind_eq_ok, Outcome.ok.injEq, Prod.mk.injEq] at h
      obtain ⟨_, _, rfl, _⟩ := h
      exact ⟨rfl, rfl⟩

/-- What one run of the restarter prints. -/
theorem oneRun_out {s s2 : RestartState n F R} {rec : RunRecord n F R} {control : RestartControl}
    (h : s.oneRun env kind = .ok (s2, rec, control)) :
    s2.restarter.options = s.restarter.options ∧ s2.runs = s.runs + 1 ∧
    rec.options.printGapEvals = s.restarter.options.defaultOptions.printGapEvals ∧
    ∃ block, rec.PrintedAs s.restarter.options.enablePrinting (s.runs + 1) block ∧
      s2.world.out = s.world.out ++ block := by
  unfold RestartState.oneRun at h
  simp only [Outcome.bind_eq_ok] at h
  obtain ⟨⟨mean, rng1⟩, hm, ⟨obj, s3⟩, ho, ⟨opts, rng3⟩, hc, h⟩ := h
  obtain ⟨e1, e2, e3, e4, e5, e6⟩ := takeObjective_same ho
  simp only at e1 e2 e3 e4 e5 e6 h hc ho hm
  split at h
  · simp at h
  rename_i c hn
  simp only [Outcome.bind_eq_ok] at h
  obtain ⟨⟨c', d⟩, hr, ⟨st, ctl⟩, hf, h⟩ := h
  simp only [Outcome.ok.injEq, Prod.mk.injEq] at h
  obtain ⟨rfl, rfl, rfl⟩ := h
  obtain ⟨k1, k2⟩ := configure_keeps hc
  have hseed : opts.seed = some (env.restartRng.u64 rng1).1 := k1
  have hps := fun (s : RestartState n F R) (e : PrintEvent n F) => s.print_same e
  refine ⟨by simp only [hps, e1], by simp only [hps, e4], k2, ?_⟩
  have hb := c47_build hn
  have hH : History.Of env obj opts [] (if s.restarter.options.enablePrinting = true
      then c.printRunInfo (s3.runs + 1) else c) := by
    refine ⟨_, c, hn, ?_⟩
    split
    · exact .quiet (op := .printRunInfo (s3.runs + 1)) (.refl c) trivial rfl
    · exact .refl c
  obtain ⟨rows, r1, r2, r3⟩ := run_rows hH hr
  obtain ⟨gs, fi, _⟩ := fresh_inv ⟨_, c, hn, .refl c⟩
  refine ⟨_, ⟨rows, r1, r2, rfl⟩, ?_⟩
  have hhead : opts.heading = (if opts.printGapEvals.isSome then
      [.initial opts.weights n opts.populationSize (opts.seed.getD env.randomSeed)] else []) := by
    unfold Options.heading
    rw [hseed]
    cases opts.printGapEvals <;> rfl
  rw [e5, ← hhead] at hb
  have hrun : ∀ k, (c.printRunInfo k).world.out = c.world.out ++
      [.runInfo k opts.populationSize opts.initialStepSize (opts.seed.getD 0)] := by
    intro k
    have hp := fi.parameters
    simp only [CMAES.printRunInfo, CMAES.print, World.print, hp]
    simp [Parameters.fromOptions, hseed]
  simp only [RestartState.print, e1, e4] at r3 ⊢
  by_cases he : s.restarter.options.enablePrinting = true
  · simp only [he, if_true, World.print] at r3 ⊢
    rw [r3, hrun, hb]
    simp [RunRecord.evals]
  · rw [Bool.not_eq_true] at he
    simp only [he, Bool.false_eq_true, if_false] at r3 ⊢
    rw [r3, hb]
    simp

/-- What was printed up to the state `s` of the loop, for the runs so far. -/
structure PrintInv (o : RestartOptions n F) (start : List (PrintEvent n F))
    (s : RestartState n F R) : Prop where
  options : s.restarter.options = o
  runs : s.runs = s.records.length
  out : ∃ blocks : List (List (PrintEvent n F)), s.world.out = start ++ blocks.flatten ∧
    blocks.length = s.records.length ∧
    ∀ (i : Nat) (x : RunRecord n F R), s.records[i]? = some x →
      x.options.printGapEvals = o.defaultOptions.printGapEvals ∧
      ∃ b, blocks[i]? = some b ∧ x.PrintedAs o.enablePrinting (i + 1) b

theorem PrintInv.congr {o : RestartOptions n F} {start : List (PrintEvent n F)}
    {s s' : RestartState n F R} (h : PrintInv o start s)
    (h1 : s'.restarter.options = s.restarter.options) (h2 : s'.runs = s.runs)
    (h3 : s'.records = s.records) (h4 : s'.world.out = s.world.out) : PrintInv o start s' := by
  obtain ⟨a, b, c⟩ := h
  exact ⟨h1.trans a, by rw [h2, h3, b], by rw [h3, h4]; exact c⟩

theorem precheck_out {s s' : RestartState n F R} {r : Option RestartTerminationReason}
    (h : s.precheck env = (r, s')) : s'.restarter = s.restarter ∧ s'.runs = s.runs ∧
      s'.records = s.records ∧ s'.world.out = s.world.out := by
  have : s' = (s.precheck env).2 := by rw [h]
  subst this
  unfold RestartState.precheck
  simp only [World.now]
  repeat' split
  all_goals first
    | exact ⟨rfl, rfl, rfl, rfl⟩
    | (rename_i m _
       by_cases hle : m ≤ env.clock s.world.clockReads - s.timeStarted <;> simp [hle])

theorem postcheck_out {s s' : RestartState n F R} {rec : RunRecord n F R}
    {control : RestartControl} {r : Option RestartTerminationReason}
    (h : s.postcheck rec control = (r, s')) : s'.restarter.options = s.restarter.options ∧
      s'.runs = s.runs ∧ s'.records = s.records ∧ s'.world.out = s.world.out := by
  rcases postcheck_cases s rec control with ⟨_, e⟩ | ⟨_, best, _, ⟨_, e⟩ | ⟨_, _, e⟩ | ⟨_, _, e⟩⟩ <;>
  · rw [e] at h
    obtain ⟨_, rfl⟩ := Prod.mk.inj h
    exact ⟨rfl, rfl, rfl, rfl⟩

theorem PrintInv.run {o : RestartOptions n F} {start : List (PrintEvent n F)}
    {s s1 s2 : RestartState n F R} {rec : RunRecord n F R} {control : RestartControl}
    (h : PrintInv o start s) (h1 : s.precheck env = (none, s1))
    (h2 : s1.oneRun env kind = .ok (s2, rec, control)) : PrintInv o start s2 := by
  obtain ⟨e1, e2, e3, e4⟩ := precheck_out h1
  have rs := runStep_of h1 h2
  obtain ⟨f1, f2, f3, block, f4, f5⟩ := oneRun_out h2
  obtain ⟨a, b, blocks, c1, c2, c3⟩ := h
  rw [e1, a] at f1 f3 f4
  rw [e2, b] at f4
  refine ⟨f1, by rw [rs.runs, rs.records, b]; simp, blocks ++ [block], ?_, ?_, ?_⟩
  · rw [f5, e4, c1]; simp
  · rw [rs.records]; simp [c2]
  · intro i x hx
    rw [rs.records] at hx
    by_cases hi : i < s.records.length
    · rw [List.getElem?_append_left hi] at hx
      obtain ⟨d1, b', d2, d3⟩ := c3 i x hx
      exact ⟨d1, b', by rw [List.getElem?_append_left (by omega)]; exact d2, d3⟩
    · rw [List.getElem?_append_right (by omega)] at hx
      have hi0 : i = s.records.length := by
        by_contra hne
        rw [List.getElem?_eq_none (by simp; omega)] at hx
        simp at hx
      subst hi0
      simp only [Nat.sub_self, List.getElem?_cons_zero, Option.some.injEq] at hx
      subst hx
      exact ⟨f3, block, by rw [← c2]; simp, f4⟩

theorem Heads.printInv {src : ObjSource n F} {r : Restarter n F R} {reuse : Bool}
    {s : RestartState n F R} (h : Heads env kind reuse (r.start env src) s) :
    PrintInv r.options (r.start env src).world.out s := by
  induction h with
  | refl => exact ⟨rfl, rfl, [], by simp, rfl, by simp [Restarter.start]⟩
  | step hh h1 h2 h3 ih =>
    obtain ⟨g1, g2, g3, g4⟩ := postcheck_out h3
    have := (ih.run h1 h2).congr g1 g2 g3 g4
    refine this.congr ?_ ?_ ?_ ?_ <;>
    · unfold RestartState.store
      split <;> rfl

/-- **C72.** The output of a restarter consists, in this order, of a line with its settings, a block
for each run and a line with the results. The first and the last line are printed exactly if printing
is enabled for the restarter. The same holds for the two lines of the restarter in each block. All
else in a block is printed by the run itself, and only if the default options of the runs enable
printing. -/
theorem c72_output {o : RestartOptions n F} {r : Restarter n F R} {src : ObjSource n F}
    {reuse : Bool} {res : RestartResults n F} {s : RestartState n F R}
    (hnew : Restarter.new env o = .ok r)
    (h : r.runInternal env kind src reuse = .ok (res, s)) :
    ∃ blocks : List (List (PrintEvent n F)),
      s.world.out =
        (if o.enablePrinting then [.restartInitial o.strategy.printedName n o.searchStart
          o.searchEnd o.strategy.printedParameters (o.seed.getD env.randomSeed)] else []) ++
        blocks.flatten ++
        (if o.enablePrinting then [.restartResults res.functionEvals res.reason res.best]
          else []) ∧
      blocks.length = s.records.length ∧
      ∀ (i : Nat) (x : RunRecord n F R), s.records[i]? = some x →
        x.options.printGapEvals = o.defaultOptions.printGapEvals ∧
        ∃ b, blocks[i]? = some b ∧ x.PrintedAs o.enablePrinting (i + 1) b := by
  obtain ⟨n1, n2, -, -, -, n3, -⟩ := restarter_new hnew
  unfold Restarter.runInternal at h
  simp only [Outcome.bind_eq_ok] at h
  obtain ⟨⟨reason, s'⟩, hl, h⟩ := h
  simp only [Outcome.ok.injEq, Prod.mk.injEq] at h
  obtain ⟨rfl, rfl⟩ := h
  obtain ⟨s1, hh, he⟩ := loop_ok (.refl) hl
  have hi : PrintInv r.options (r.start env src).world.out s' := by
    have h1 := hh.printInv
    cases he with
    | before hp =>
      obtain ⟨e1, e2, e3, e4⟩ := precheck_out hp
      exact h1.congr (by rw [e1]) e2 e3 e4
    | after x1 x2 x3 =>
      obtain ⟨e1, e2, e3, e4⟩ := postcheck_out x3
      exact (h1.run x1 x2).congr e1 e2 e3 e4
  have hstart : (r.start env src).world.out = if o.enablePrinting = true then
      [.restartInitial o.strategy.printedName n o.searchStart o.searchEnd
        o.strategy.printedParameters (o.seed.getD env.randomSeed)] else [] := by
    unfold Restarter.start
    rw [n1, n2, n3]
    have e1 : o.strategy.algorithmName = o.strategy.printedName := by cases o.strategy <;> rfl
    have e2 : o.strategy.parameters = o.strategy.printedParameters := by
      cases o.strategy <;> rfl
    rw [e1, e2]
    split <;> simp [World.print, World.init, World.now]
  obtain ⟨a, b, blocks, c1, c2, c3⟩ := hi
  rw [n1] at a c3
  rw [hstart] at c1
  refine ⟨blocks, ?_, ?_, ?_⟩
  · unfold RestartState.print
    rw [a]
    by_cases hp : o.enablePrinting = true <;> simp [hp, World.print, c1]
  · rw [(RestartState.print_same _ _).2.2.2.2.1]; exact c2
  · rw [(RestartState.print_same _ _).2.2.2.2.1]; exact c3

theorem flatten_eq {α β : Type} {f : α → Nat → List β} :
    ∀ {blocks : List (List β)} {l : List α} {k : Nat}, blocks.length = l.length →
      (∀ (i : Nat) (x : α), l[i]? = some x → blocks[i]? = some (f x (k + i))) →
      blocks.flatten = (l.zipIdx k).flatMap fun p => f p.1 p.2
  | [], [], _, _, _ => rfl
  | [], _ :: _, _, h, _ => by simp at h
  | _ :: _, [], _, h, _ => by simp at h
  | b :: bs, a :: l, k, h, hb => by
    have h0 := hb 0 a rfl
    simp only [List.getElem?_cons_zero, Option.some.injEq, Nat.add_zero] at h0
    have := flatten_eq (f := f) (blocks := bs) (l := l) (k := k + 1) (by simpa using h)
      fun i x hx => by
        have := hb (i + 1) x (by simpa using hx)
        simpa [Nat.add_assoc, Nat.add_comm 1] using this
    simp [h0, this]

/-- **C72.** If the default options of the runs do not enable printing, the output is determined by
the runs: nothing at all unless printing is enabled for the restarter, and otherwise its settings, two
lines for each run, numbered from one, and the results. -/
theorem c72_lines {o : RestartOptions n F} {r : Restarter n F R} {src : ObjSource n F}
    {reuse : Bool} {res : RestartResults n F} {s : RestartState n F R}
    (hnew : Restarter.new env o = .ok r)
    (h : r.runInternal env kind src reuse = .ok (res, s))
    (hg : o.defaultOptions.printGapEvals = none) :
    s.world.out = if o.enablePrinting then
        [.restartInitial o.strategy.printedName n o.searchStart o.searchEnd
          o.strategy.printedParameters (o.seed.getD env.randomSeed)] ++
        ((s.records.zipIdx 1).flatMap fun p =>
          [.runInfo p.2 p.1.options.populationSize p.1.options.initialStepSize
            (p.1.options.seed.getD 0),
           .runResults p.2 (p.1.final.overallBestIndividual.map fun b => b.value)
            p.1.data.reasons p.1.evals]) ++
        [.restartResults res.functionEvals res.reason res.best]
      else [] := by
  obtain ⟨blocks, h1, h2, h3⟩ := c72_output hnew h
  have hb : ∀ (i : Nat) (x : RunRecord n F R), s.records[i]? = some x → blocks[i]? = some
      (if o.enablePrinting = true then
        [.runInfo (1 + i) x.options.populationSize x.options.initialStepSize
            (x.options.seed.getD 0),
           .runResults (1 + i) (x.final.overallBestIndividual.map fun b => b.value)
            x.data.reasons x.evals] else []) := by
    intro i x hx
    obtain ⟨a1, b, a2, rows, -, a4, a5⟩ := h3 i x hx
    rw [hg] at a1
    rw [if_pos a1] at a4
    subst a4
    have hh : x.options.heading = [] := by
      unfold Options.heading
      rw [a1]
    rw [a2, a5, hh, Nat.add_comm 1 i]
    by_cases hp : o.enablePrinting = true <;> simp [hp]
  have := flatten_eq (f := fun (x : RunRecord n F R) k => if o.enablePrinting = true then
        [.runInfo k x.options.populationSize x.options.initialStepSize
            (x.options.seed.getD 0),
           .runResults k (x.final.overallBestIndividual.map fun b => b.value)
            x.data.reasons x.evals] else []) h2 hb
  rw [h1, this]
  by_cases hp : o.enablePrinting = true <;> simp [hp]

/-! ### Concrete cases -/

open Witness in
/-- Three runs with printing: eight lines. -/
example : ∃ r res s, Restarter.new (wenv 2)
      { restartOpts (localStrategy 3) with enablePrinting := true } = .ok r ∧
    r.runInternal (wenv 2) .seq (.once (some sphere)) true = .ok (res, s) ∧
    s.records.length = 3 ∧ s.world.out.length = 8 ∧
    (restartOpts (localStrategy 3)).defaultOptions.printGapEvals = none := by
  obtain ⟨r, res, s, h0, h, hp⟩ := of_tryRestart (env := wenv 2) (kind := .seq)
    (src := .once (some sphere)) (reuse := true)
    (o := { restartOpts (localStrategy 3) with enablePrinting := true })
    (p := fun res s => decide (s.records.length = 3 ∧ s.world.out.length = 8))
    (by decide +kernel)
  have := of_decide_eq_true hp
  exact ⟨r, res, s, h0, h, this.1, this.2, rfl⟩

open Witness in
/-- Three runs of two generations, which print too: heading, two rows and final information for
each. -/
example : ∃ r res s, Restarter.new (wenv 2) { restartOpts (localStrategy 3) with
      enablePrinting := true,
      defaultOptions := { (restartOpts (localStrategy 3)).defaultOptions with
        printGapEvals := some 1 } } = .ok r ∧
    r.runInternal (wenv 2) .seq (.once (some sphere)) true = .ok (res, s) ∧
    s.records.length = 3 ∧ s.world.out.length = 20 := by
  obtain ⟨r, res, s, h0, h, hp⟩ := of_tryRestart (env := wenv 2) (kind := .seq)
    (src := .once (some sphere)) (reuse := true)
    (o := { restartOpts (localStrategy 3) with
      enablePrinting := true,
      defaultOptions := { (restartOpts (localStrategy 3)).defaultOptions with
        printGapEvals := some 1 } })
    (p := fun res s => decide (s.records.length = 3 ∧ s.world.out.length = 20))
    (by decide +kernel)
  have := of_decide_eq_true hp
  exact ⟨r, res, s, h0, h, this.1, this.2⟩

end Cmaes
