import Verif.Lemmas.Twin
import Verif.Lemmas.RestartSim
import Verif.Props.Restart

/-!
# Running again: the same seed gives the same run, also for a restarter
-/

set_option linter.unusedSectionVars false

namespace Cmaes
variable {n : Nat} {F R : Type} [Flt F]

namespace Twin
variable {sameTime sameOut : Prop} {c c' : CMAES n F R}

theorem eraseTime (h : Twin sameTime True c c') : c'.eraseTime = c.eraseTime := by
  obtain ⟨h1, h2, h3, h4, h5, h6, h7, h8, h9, -, h11⟩ := h
  obtain ⟨s, p, st, hi, pl, g, l, t, w⟩ := c
  obtain ⟨s', p', st', hi', pl', g', l', t', w'⟩ := c'
  obtain ⟨a, b, d⟩ := w
  obtain ⟨a', b', d'⟩ := w'
  simp only [forall_const] at h1 h2 h3 h4 h5 h6 h7 h8 h9 h11
  simp only [CMAES.eraseTime]
  subst_vars
  rfl

theorem eraseOutput (h : Twin True sameOut c c') : c'.eraseOutput = c.eraseOutput := by
  obtain ⟨h1, h2, h3, h4, h5, h6, h7, h8, h9, h10, -⟩ := h
  obtain ⟨s, p, st, hi, pl, g, l, t, w⟩ := c
  obtain ⟨s', p', st', hi', pl', g', l', t', w'⟩ := c'
  obtain ⟨a, b, d⟩ := w
  obtain ⟨a', b', d'⟩ := w'
  simp only [forall_const] at h1 h2 h3 h4 h5 h6 h7 h8 h9 h10
  simp only [CMAES.eraseOutput]
  subst_vars
  rfl

end Twin

/-- Worlds that differ in the output only. -/
structure WorldTwin (sameOut : Prop) (w w' : World n F) : Prop where
  steps : w'.steps = w.steps
  clockReads : w'.clockReads = w.clockReads
  out : sameOut → w'.out = w.out

theorem WorldTwin.print {sameOut : Prop} {w w' : World n F} (h : WorldTwin sameOut w w')
    (e : PrintEvent n F) : WorldTwin sameOut (w.print e) (w'.print e) :=
  ⟨h.1, h.2, fun hs => by simp [World.print, h.out hs]⟩

theorem WorldTwin.printIf {sameOut : Prop} {w w' : World n F} {b b' : Bool}
    (h : WorldTwin sameOut w w') (hb : sameOut → b' = b) (e : PrintEvent n F) :
    WorldTwin sameOut (if b then w.print e else w) (if b' then w'.print e else w') := by
  refine ⟨?_, ?_, fun hs => ?_⟩
  · cases b <;> cases b' <;> exact h.steps
  · cases b <;> cases b' <;> exact h.clockReads
  · rw [hb hs]
    cases b
    · exact h.out hs
    · exact (h.print e).out hs

/-- Freshly built. -/
theorem Twin.create {env env' : Env n F R} {sameTime sameOut : Prop} {w w' : World n F}
    {obj : Obj n F} {o o' : Options n F} (hw : WorldTwin sameOut w w') (hr : env'.rng = env.rng)
    (ht : sameTime → env'.clock = env.clock)
    (ho : o' = { o with seed := some (o.seed.getD env.randomSeed) }) :
    Twin sameTime sameOut (CMAES.create env w obj o) (CMAES.create env' w' obj o') := by
  subst ho
  have h0 : Twin sameTime sameOut
      ({ sampler := Sampler.new env o.constraints o.maxResamples o.populationSize obj
          (o.seed.getD env.randomSeed)
         parameters := Parameters.fromOptions o (o.seed.getD env.randomSeed)
         state := State.new o.initialMean o.initialStepSize
         history := History.new
         plot := o.plotOptions.map fun po => Plot.new po o.mode
         printGapEvals := o.printGapEvals
         lastPrintEvals := 0
         timeCreated := (w.now env).1
         world := (w.now env).2 } : CMAES n F R)
      { sampler := Sampler.new env' o.constraints o.maxResamples o.populationSize obj
          (o.seed.getD env.randomSeed)
        parameters := Parameters.fromOptions o (o.seed.getD env.randomSeed)
        state := State.new o.initialMean o.initialStepSize
        history := History.new
        plot := o.plotOptions.map fun po => Plot.new po o.mode
        printGapEvals := o.printGapEvals
        lastPrintEvals := 0
        timeCreated := (w'.now env').1
        world := (w'.now env').2 } := by
    refine ⟨?_, rfl, rfl, rfl, rfl, rfl, rfl, hw.steps, ?_, fun hs => ?_, hw.out⟩
    · simp [Sampler.new, hr]
    · simp [World.now, hw.clockReads]
    · simp [World.now, hw.clockReads, ht hs]
  have h1 := h0.addPlotPoint
  unfold CMAES.create
  simp only [Option.getD_some]
  have e : ∀ c : CMAES n F R, c.addPlotPoint.printGapEvals = c.printGapEvals := fun _ => rfl
  cases hg : o.printGapEvals with
  | none =>
    simp only [hg] at h1
    simp only [World.now] at h1 ⊢
    simp only [e, Option.isSome_none, Bool.false_eq_true, if_false]
    exact h1
  | some g =>
    simp only [hg] at h1
    simp only [World.now] at h1 ⊢
    simp only [e, Option.isSome_some, if_true]
    exact Twin.print h1 _

/-! ### C16 -/

/-- **C16, everything else.** Running again with the reported seed on the same machine, at another
time, under other schedules and with other random seeds: building succeeds, and the same user calls
have the same outcome — the same returned data, and the same `CMAES` up to the time of its
creation, including search state, history, objective calls, plot data and printed output. The clock
matters only if a time limit is set, the schedule only if points are evaluated in parallel, and the
split of the sums only with `parallel_update`. -/
theorem c16_deterministic [FltLaws F] {env env' : Env n F R} (hm : SameMachine env env')
    {w : World n F} {obj : Obj n F} {o : Options n F} {c0 : CMAES n F R}
    (h0 : CMAES.new env w obj o = .ok c0)
    (ht : o.maxTime = none ∨ env'.clock = env.clock)
    (hp : o.parallelUpdate = false ∨ env'.redTree = env.redTree)
    {ops : List Op} (hk : (∀ op ∈ ops, op.sequential = op) ∨ env'.sched = env.sched) :
    ∃ c0', CMAES.new env' w obj { o with seed := some c0.parameters.seed } = .ok c0' ∧
      Outcome.Rel (fun a b => b.1.eraseTime = a.1.eraseTime ∧ b.2 = a.2)
        (c0.applyAll env ops) (c0'.applyAll env' ops) := by
  obtain ⟨hv, rfl⟩ := new_eq_ok h0
  refine ⟨CMAES.create env' w obj { o with seed := some (o.seed.getD env.randomSeed) }, ?_, ?_⟩
  · have hv' : ∀ x, CMAES.validate { o with seed := x } = none := fun _ => hv
    unfold CMAES.new
    rw [hv', (create_search env w obj o).2.1]
    rfl
  · have key : ∀ {t : List (NextCall n F)} {c c' : CMAES n F R}, History.Of env obj o t c →
        Twin (env'.clock = env.clock) True c c' →
        Outcome.Rel (fun a b => Twin (env'.clock = env.clock) True a.1 b.1 ∧ b.2 = a.2)
          (c.applyAll env ops) (c'.applyAll env' ops) := by
      clear h0 hv
      induction ops with
      | nil => intro t c c' _ h; exact .ok ⟨h, rfl⟩
      | cons op ops ih =>
        intro t c c' hc h
        simp only [CMAES.applyAll]
        have he : TwinEnv (env'.clock = env.clock) env env' c.parameters := by
          obtain ⟨_, i, _⟩ := fresh_inv hc
          refine ⟨hm.rng, hm.eigen, hm.medianNaN, hm.resampleFuel, hm.runFuel, ?_, ?_⟩
          · rw [i.parameters]; exact hp
          · rw [i.parameters]; exact ht.imp id fun e => ⟨e, e⟩
        have hr := Twin.apply he (op := op)
          (hk.imp (fun hall => hall op (List.mem_cons_self ..)) id) h
        generalize hx : c.apply env op = x at hr
        generalize hy : c'.apply env' op = y at hr
        cases hr with
        | panic q => exact .panic q
        | diverge => exact .diverge
        | ok hab =>
          rename_i a b
          obtain ⟨a, r⟩ := a
          obtain ⟨b, r'⟩ := b
          obtain ⟨h1, h2⟩ := hab
          simp only at h1 h2
          subst h2
          obtain ⟨t', ht', _⟩ := apply_exec hx
          obtain ⟨w0, c00, e0, e1⟩ := hc
          simp only [Outcome.ok_bind]
          refine Outcome.Rel.bind (ih (hk.imp
            (fun hall op hop => hall op (List.mem_cons_of_mem _ hop)) id)
            ⟨w0, c00, e0, e1.trans ht'⟩ h1) ?_
          rintro ⟨a', r⟩ ⟨b', r''⟩ ⟨h3, h4⟩
          simp only at h3 h4
          subst h4
          exact .ok ⟨h3, rfl⟩
    refine (key ⟨w, _, h0, .refl _⟩ (Twin.create ⟨rfl, rfl, fun _ => rfl⟩ hm.rng id rfl)).mono ?_
    rintro a b ⟨h1, h2⟩
    exact ⟨h1.eraseTime, h2⟩

/-! ### The restarter -/

theorem configure_keeps_maxTime {rng : RngOps R F} {s : Strategy F} {o o' : Options n F} {size : F}
    {r r' : R} (h : s.configure rng o size r = .ok (o', r')) :
    o'.maxTime = o.maxTime ∧ o'.parallelUpdate = o.parallelUpdate ∧ o'.seed = o.seed := by
  unfold Strategy.configure at h
  split at h
  · simp only [Outcome.ok.injEq, Prod.mk.injEq] at h
    obtain ⟨rfl, _⟩ := h
    exact ⟨rfl, rfl, rfl⟩
  · simp only [Outcome.bind_eq_ok, Outcome.ok.injEq, Prod.mk.injEq] at h
    obtain ⟨_, _, rfl, _⟩ := h
    exact ⟨rfl, rfl, rfl⟩
  · split at h
    · simp only [Outcome.ok.injEq, Prod.mk.injEq] at h
      obtain ⟨rfl, _⟩ := h
      exact ⟨rfl, rfl, rfl⟩
    · simp only [Outcome.bind_eq_ok, Outcome.ok.injEq, Prod.mk.injEq] at h
      obtain ⟨_, _, rfl, _⟩ := h
      exact ⟨rfl, rfl, rfl⟩

/-- The comparison of two restarters with the same search. -/
def twinSim {env env' : Env n F R} (hm : SameMachine env env') {kind : EvalKind}
    (hk : kind = .seq ∨ env'.sched = env.sched) (sameOut : Prop) {ro ro' : RestartOptions n F}
    (hs : ro' = { ro with enablePrinting := ro'.enablePrinting, seed := ro'.seed })
    (hpr : sameOut → ro'.enablePrinting = ro.enablePrinting)
    (ht : ro.maxTime = none ∧ ro.defaultOptions.maxTime = none ∨ env'.clock = env.clock)
    (hp : ro.parallelUpdate = false ∨ env'.redTree = env.redTree) :
    RestartSim env env' kind kind ro ro' where
  T := .same
  WRel := WorldTwin sameOut
  ORel := Eq
  LRel := Eq
  φ := id
  ψ := Individual.mapValue id
  μ := id
  OptRel o o' := (o.maxTime = ro.defaultOptions.maxTime ∧ o.parallelUpdate = ro.parallelUpdate ∧
    o.seed.isSome) ∧ o' = o
  RunRel c d c' d' := Twin (env'.clock = env.clock) sameOut c c' ∧ d' = d
  restartRng := hm.restartRng
  restartFuel := hm.restartFuel
  ψ_value _ := rfl
  mean _ := by rw [hs]; exact Relator.same.of_eq rfl fun _ _ => rfl
  maxFunctionEvals := by rw [hs]
  maxTime := by rw [hs]
  configure s mean seed r := by
    refine Relator.same.of_eq (by rw [hs]; rfl) fun x h => ⟨⟨?_, rfl⟩, rfl⟩
    obtain ⟨h1, h2, h3⟩ := configure_keeps_maxTime h
    exact ⟨h1, h2, by rw [h3]; rfl⟩
  now := by
    intro w w' h
    refine ⟨⟨h.steps, ?_, h.out⟩, ?_⟩
    · simp [World.now, h.clockReads]
    · rcases ht with ht | ht
      · exact .inl ht.1
      · right; simp [World.now, h.clockReads, ht]
  print_run := by
    intro w w' k b l e h
    rw [Option.map_id]
    exact h.printIf hpr _
  print_results := by
    intro w w' e r b h
    have : b.map (Individual.mapValue id) = b := by cases b <;> rfl
    rw [this]
    exact h.printIf hpr _
  run := by
    rintro w w' obj _ _ o k h rfl ⟨⟨h1, h2, h3⟩, rfl⟩
    obtain ⟨s, h3⟩ := Option.isSome_iff_exists.mp h3
    simp only [buildRun, CMAES.new]
    cases CMAES.validate o with
    | some e => exact Relator.same.panic _
    | none =>
      have hc : Twin (env'.clock = env.clock) sameOut (CMAES.create env w obj o)
          (CMAES.create env' w' obj o) := by
        refine Twin.create h hm.rng id ?_
        rw [h3, Option.getD_some, ← h3]
      have hpi : Twin (env'.clock = env.clock) sameOut
          (if ro.enablePrinting then (CMAES.create env w obj o).printRunInfo k
            else CMAES.create env w obj o)
          (if ro'.enablePrinting then (CMAES.create env' w' obj o).printRunInfo k
            else CMAES.create env' w' obj o) := by
        have e : (CMAES.create env' w' obj o).parameters =
            (CMAES.create env w obj o).parameters := hc.parameters
        have hw := WorldTwin.printIf ⟨hc.steps, hc.clockReads, hc.out⟩ hpr
          (.runInfo k (CMAES.create env w obj o).parameters.lambda
            (CMAES.create env w obj o).parameters.initialSigma
            (CMAES.create env w obj o).parameters.seed)
        obtain ⟨g1, g2, g3, g4, g5, g6, g7, g8, g9, g10, g11⟩ := hc
        simp only [CMAES.printRunInfo, e]
        cases e1 : ro.enablePrinting <;> cases e2 : ro'.enablePrinting <;>
          simp only [e1, e2, if_true, Bool.false_eq_true, if_false] at hw ⊢ <;>
          exact ⟨g1, g2, g3, g4, g5, g6, g7, hw.steps, hw.clockReads, g10, hw.out⟩
      refine Twin.run ?_ hk hpi
      have hpar : (if ro.enablePrinting then (CMAES.create env w obj o).printRunInfo k
            else CMAES.create env w obj o).parameters =
          Parameters.fromOptions o (o.seed.getD env.randomSeed) := by
        split
        · exact (create_search env w obj o).2.1
        · exact (create_search env w obj o).2.1
      rw [hpar]
      refine ⟨hm.rng, hm.eigen, hm.medianNaN, hm.resampleFuel, hm.runFuel, ?_, ?_⟩
      · refine hp.imp (fun e => ?_) id
        exact h2.trans e
      · exact ht.imp (fun e => h1.trans e.2) fun e => ⟨e, e⟩
  run_world h := ⟨h.1.steps, h.1.clockReads, h.1.out⟩
  run_obj h := by simp [CMAES.intoObjectiveFunction, h.1.sampler]
  run_log h := by rw [h.1.sampler]
  run_evals h := by simp [CMAES.functionEvals, h.1.sampler]
  run_best h := by
    have : ∀ b : Option (Individual n F), b.map (Individual.mapValue id) = b := by
      intro b; cases b <;> rfl
    simp [this, CMAES.overallBestIndividual, h.1.history]
  run_reasons h := by rw [h.2]
  better := by intro a b; rw [hs]; rfl

theorem mapResults_id (x : RestartResults n F) : RestartSim.mapResults (Individual.mapValue id) x = x := by
  have : x.best.map (Individual.mapValue id) = x.best := by cases x.best <;> rfl
  unfold RestartSim.mapResults
  rw [this]

theorem restarter_new' {env : Env n F R} {o : RestartOptions n F} {r : Restarter n F R}
    (h : Restarter.new env o = .ok r) :
    r = { options := o, strategy := o.strategy, seed := o.seed.getD env.randomSeed,
          rng := env.restartRng.seed (o.seed.getD env.randomSeed), overallBest := none } := by
  unfold Restarter.new at h
  dsimp only at h
  split at h
  · simp at h
  · split at h
    · simp at h
    · injection h with h
      exact h.symm

theorem SourceRel.refl {env env' : Env n F R} {kind kind' : EvalKind} {ro ro' : RestartOptions n F}
    {S : RestartSim env env' kind kind' ro ro'} (ho : ∀ x, S.ORel x x) (hl : S.LRel = Eq)
    (src : ObjSource n F) : S.SourceRel src src := by
  cases src with
  | factory get =>
    refine .factory fun l l' h => ?_
    rw [hl, List.forall₂_eq_eq_eq] at h
    rw [h]
    exact ho _
  | once f =>
    refine .once ?_
    cases f with
    | none => exact .none
    | some f => exact .some (ho f)

theorem forall2_see {e : CMAES n F R → CMAES n F R} {P : RunRecord n F R → RunRecord n F R → Prop}
    (hP : ∀ x y, P x y → y.see e = x.see e) {l l' : List (RunRecord n F R)}
    (h : List.Forall₂ P l l') : l'.map (RunRecord.see e) = l.map (RunRecord.see e) := by
  induction h with
  | nil => rfl
  | cons h _ ih => simp only [List.map_cons, ih, hP _ _ h]

/-! ### C74 -/

/-- **C74.** Restarting again with the reported seed on the same machine, at another time, under
other schedules and with other random seeds: building succeeds, and the two have the same outcome —
the same results, the same runs (each with the same options, objective calls, returned data and
final `CMAES` up to the time of its creation) and the same printed output, or the same panic. This
holds with and without reuse. The clock matters only if a time limit is set, the schedule only if
points are evaluated in parallel, and the split of the sums only with `parallel_update`. -/
theorem c74_reproducible {env env' : Env n F R} (hm : SameMachine env env')
    {o : RestartOptions n F} {r : Restarter n F R} (h0 : Restarter.new env o = .ok r)
    (ht : o.maxTime = none ∧ o.defaultOptions.maxTime = none ∨ env'.clock = env.clock)
    (hp : o.parallelUpdate = false ∨ env'.redTree = env.redTree)
    {kind : EvalKind} (hk : kind = .seq ∨ env'.sched = env.sched) (src : ObjSource n F)
    (reuse : Bool) :
    ∃ r', Restarter.new env' { o with seed := some r.seed } = .ok r' ∧
      Outcome.Rel (fun x y => y.1 = x.1 ∧
          y.2.records.map (RunRecord.see CMAES.eraseTime) =
            x.2.records.map (RunRecord.see CMAES.eraseTime) ∧
          y.2.world.out = x.2.world.out)
        (r.runInternal env kind src reuse) (r'.runInternal env' kind src reuse) := by
  have hr := restarter_new' h0
  have hseed : r.seed = o.seed.getD env.randomSeed := by rw [hr]
  have h1 : Restarter.new env' { o with seed := some r.seed } =
      .ok { r with options := { o with seed := some r.seed } } := by
    unfold Restarter.new at h0 ⊢
    dsimp only at h0 ⊢
    split at h0
    · simp at h0
    · split at h0
      · simp at h0
      · injection h0 with h0
        rw [if_neg (by assumption), if_neg (by assumption), hm.restartRng, ← h0]
        rfl
  refine ⟨_, h1, ?_⟩
  let S := twinSim hm hk True (ro := o) (ro' := { o with seed := some r.seed }) rfl (fun _ => rfl)
    ht hp
  have hopt : r.options = o := by rw [hr]
  have hstart : S.StateRel (r.start env src)
      (Restarter.start env' src { r with options := { o with seed := some r.seed } }) := by
    refine ⟨hopt, rfl, rfl, rfl, ?_, ?_, rfl, rfl, ?_, SourceRel.refl (fun _ => rfl) rfl src, rfl,
      .none, .nil⟩
    · have hb : r.overallBest = none := by rw [hr]
      show r.overallBest = r.overallBest.map _
      rw [hb]
      rfl
    · refine ht.imp (fun e => e.1) fun e => ?_
      simp only [Restarter.start, hopt, World.now, e]
    · simp only [Restarter.start, hopt]
      refine ⟨?_, ?_, fun _ => ?_⟩ <;> simp only [World.now] <;> split <;> rfl
  refine (RestartSim.runInternal (S := S) hstart : Outcome.Rel _ _ _).mono ?_
  rintro x y ⟨h2, h3⟩
  refine ⟨h2.trans (mapResults_id _), ?_, h3.world.out trivial⟩
  refine forall2_see (fun x y hxy => ?_) h3.records
  obtain ⟨e1, e2, e3, e4⟩ := hxy
  obtain ⟨a1, a2, a3, a4⟩ := x
  obtain ⟨b1, b2, b3, b4⟩ := y
  simp only [RunRecord.see] at e1 e2 e3 e4 ⊢
  have e1 : a1 = b1 := e1
  have e2 : b2 = a2 := e2.2
  rw [e3.eraseTime, e1, e2, e4]

/-! ### C76 -/

/-- **C76.** Printing does not influence a restarter: with printing switched on or off it has the
same outcome — the same results and the same runs (options, objective calls, returned data and
final `CMAES` up to what was printed), or the same panic. -/
theorem c76_printing {env : Env n F R} {o : RestartOptions n F} {b : Bool} {r r' : Restarter n F R}
    (h : Restarter.new env o = .ok r)
    (h' : Restarter.new env { o with enablePrinting := b } = .ok r') {kind : EvalKind}
    (src : ObjSource n F) (reuse : Bool) :
    Outcome.Rel (fun x y => y.1 = x.1 ∧
        y.2.records.map (RunRecord.see CMAES.eraseOutput) =
          x.2.records.map (RunRecord.see CMAES.eraseOutput))
      (r.runInternal env kind src reuse) (r'.runInternal env kind src reuse) := by
  have hr := restarter_new' h
  have hr' := restarter_new' h'
  let S := twinSim (env := env) (env' := env) ⟨rfl, rfl, rfl, rfl, rfl, rfl, rfl⟩ (kind := kind)
    (.inr rfl) False (ro := o) (ro' := { o with enablePrinting := b }) rfl (fun h => h.elim)
    (.inr rfl) (.inr rfl)
  have hstart : S.StateRel (r.start env src) (r'.start env src) := by
    subst hr hr'
    refine ⟨rfl, rfl, rfl, rfl, rfl, .inr ?_, rfl, rfl, ?_, SourceRel.refl (fun _ => rfl) rfl src,
      rfl, .none, .nil⟩
    · simp only [Restarter.start, World.now]
      split <;> split <;> rfl
    · simp only [Restarter.start]
      refine ⟨?_, ?_, fun h => h.elim⟩ <;> simp only [World.now] <;> split <;> split <;> rfl
  refine (RestartSim.runInternal (S := S) hstart : Outcome.Rel _ _ _).mono ?_
  rintro x y ⟨h2, h3⟩
  refine ⟨h2.trans (mapResults_id _), ?_⟩
  refine forall2_see (fun x y hxy => ?_) h3.records
  obtain ⟨e1, e2, e3, e4⟩ := hxy
  obtain ⟨a1, a2, a3, a4⟩ := x
  obtain ⟨b1, b2, b3, b4⟩ := y
  simp only [RunRecord.see] at e1 e2 e3 e4 ⊢
  have e1 : a1 = b1 := e1
  have e2 : b2 = a2 := e2.2
  have e3 : Twin True False a3 b3 := ⟨e3.1, e3.2, e3.3, e3.4, e3.5, e3.6, e3.7, e3.8, e3.9,
    fun _ => e3.10 trivial, e3.11⟩
  rw [e3.eraseOutput, e1, e2, e4]

/-! ### Witnesses -/

section Examples
open Witness

/-- The machine of the examples at another time, with another schedule and random seed. -/
def Witness.later : Env 2 F64 Nat :=
  { wenv 2 with
    clock := fun k => 1000 + 7 * k
    sched := fun _ => { order := List.range, perm := fun _ => .refl _, extra := 0 }
    randomSeed := 17 }

theorem Witness.later_same : SameMachine (wenv 2) later := ⟨rfl, rfl, rfl, rfl, rfl, rfl, rfl⟩

/-- C16: without a seed in the options, the first run reports the random one; repeating it later
meets the hypotheses, and the calls complete. -/
example : ∃ c0, CMAES.new (wenv 2) World.init sphere { opts with seed := none } = .ok c0 ∧
    (∃ c0', CMAES.new later World.init sphere
        { opts with seed := some c0.parameters.seed } = .ok c0' ∧
      Outcome.Rel (fun a b => b.1.eraseTime = a.1.eraseTime ∧ b.2 = a.2)
        (c0.applyAll (wenv 2) [.next .seq, .printInfo, .next .seq])
        (c0'.applyAll later [.next .seq, .printInfo, .next .seq])) ∧
    (c0.applyAll (wenv 2) [.next .seq, .printInfo, .next .seq]).check
      (fun x => x.1.generation == 2 && x.1.world.out.length == 1) = true := by
  have hv : CMAES.validate { opts with seed := none } = none := opts_valid
  have hn : CMAES.new (wenv 2) World.init sphere { opts with seed := none } =
      .ok (CMAES.create (wenv 2) World.init sphere { opts with seed := none }) := by
    unfold CMAES.new; rw [hv]
  exact ⟨_, hn, c16_deterministic later_same hn (.inl rfl) (.inl rfl) (.inl (by decide)),
    by decide +kernel⟩

/-- With a time limit the time does matter: the slower machine stops earlier. -/
example :
    ((CMAES.create (wenv 2) World.init sphere { opts with maxTime := some 5 }).next (wenv 2) .seq).check
      (fun x => x.2.isNone) = true ∧
    ((CMAES.create later World.init sphere { opts with maxTime := some 5 }).next later .seq).check
      (fun x => x.2.isSome) = true := by
  decide +kernel

/-- C74: three runs of a restarter that prints, repeated later. -/
example : ∃ r, Restarter.new (wenv 2)
      { restartOpts (localStrategy 3) with seed := none, enablePrinting := true } = .ok r ∧
    ∃ r', Restarter.new later
      { restartOpts (localStrategy 3) with seed := some r.seed, enablePrinting := true } = .ok r' ∧
    Outcome.Rel (fun x y => y.1 = x.1 ∧
          y.2.records.map (RunRecord.see CMAES.eraseTime) =
            x.2.records.map (RunRecord.see CMAES.eraseTime) ∧
          y.2.world.out = x.2.world.out)
        (r.runInternal (wenv 2) .seq (.once (some sphere)) true)
        (r'.runInternal later .seq (.once (some sphere)) true) ∧
    ∃ res s, r.runInternal (wenv 2) .seq (.once (some sphere)) true = .ok (res, s) ∧
      res.runs = 3 ∧ s.records.length = 3 ∧ 3 < s.world.out.length := by
  obtain ⟨r, res, s, h0, h, hp⟩ := of_tryRestart (env := wenv 2) (kind := .seq)
    (src := .once (some sphere)) (reuse := true)
    (o := { restartOpts (localStrategy 3) with seed := none, enablePrinting := true })
    (p := fun res s => decide (res.runs = 3 ∧ s.records.length = 3 ∧ 3 < s.world.out.length))
    (by decide +kernel)
  obtain ⟨r', h1, h2⟩ := c74_reproducible later_same h0 (.inl ⟨rfl, rfl⟩) (.inl rfl) (.inl rfl)
    (.once (some sphere)) true
  exact ⟨r, h0, r', h1, h2, res, s, h, of_decide_eq_true hp⟩

/-- C76: three runs with and without printing. -/
example : ∃ r r' res s res' s',
    Restarter.new (wenv 2) (restartOpts (localStrategy 3)) = .ok r ∧
    Restarter.new (wenv 2) { restartOpts (localStrategy 3) with enablePrinting := true } = .ok r' ∧
    r.runInternal (wenv 2) .seq (.factory fun _ => sphere) false = .ok (res, s) ∧
    r'.runInternal (wenv 2) .seq (.factory fun _ => sphere) false = .ok (res', s') ∧
    res' = res ∧ res.runs = 3 ∧ s.world.out.length = 0 ∧ s'.world.out.length = 8 := by
  obtain ⟨r, res, s, h0, h, hp⟩ := of_tryRestart (env := wenv 2) (kind := .seq)
    (src := .factory fun _ => sphere) (reuse := false) (o := restartOpts (localStrategy 3))
    (p := fun res s => decide (res.runs = 3 ∧ s.world.out.length = 0)) (by decide +kernel)
  obtain ⟨r', res', s', h0', h', hp'⟩ := of_tryRestart (env := wenv 2) (kind := .seq)
    (src := .factory fun _ => sphere) (reuse := false)
    (o := { restartOpts (localStrategy 3) with enablePrinting := true })
    (p := fun res s => decide (s.world.out.length = 8)) (by decide +kernel)
  have hrel := c76_printing h0 h0' (kind := .seq) (.factory fun _ => sphere) false
  rw [h, h'] at hrel
  cases hrel with
  | ok hrel => exact ⟨r, r', res, s, res', s', h0, h0', h, h', hrel.1, (of_decide_eq_true hp).1,
      (of_decide_eq_true hp).2, of_decide_eq_true hp'⟩

end Examples

end Cmaes
