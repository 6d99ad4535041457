import Verif.Lemmas.Exec

/-!
# Invariants of executions
-/

set_option linter.unusedSectionVars false

namespace Cmaes
variable {n : Nat} {F R : Type} [Flt F]

/-! ### The objective's log is faithful -/

theorem Faithful.append {f : List (Vec n F × F) → Vec n F → F}
    {log a b : List (Vec n F × F)} (ha : Faithful f log a) (hb : Faithful f (log ++ a) b) :
    Faithful f log (a ++ b) := by
  induction a generalizing log with
  | nil => simpa using hb
  | cons e a ih =>
    obtain ⟨x, v⟩ := e
    exact ⟨ha.1, ih ha.2 (by simpa using hb)⟩

theorem Faithful.split {f : List (Vec n F × F) → Vec n F → F}
    {log a b : List (Vec n F × F)} (h : Faithful f log (a ++ b)) :
    Faithful f log a ∧ Faithful f (log ++ a) b := by
  induction a generalizing log with
  | nil => exact ⟨trivial, by simpa using h⟩
  | cons e a ih =>
    obtain ⟨x, v⟩ := e
    obtain ⟨h1, h2⟩ := ih h.2
    exact ⟨⟨h.1, h1⟩, by simpa using h2⟩

theorem evalSeq_faithful (mean : Vec n F) (sigma : F) (ys : List (Vec n F)) (o : Obj n F) :
    ∃ calls, (evalSeq mean sigma ys o).2 = { o with log := o.log ++ calls } ∧
      Faithful o.f o.log calls := by
  induction ys generalizing o with
  | nil => exact ⟨[], by simp [evalSeq], trivial⟩
  | cons y ys ih =>
    obtain ⟨v, hv, h2, h1⟩ := new_spec y mean sigma o
    simp only [evalSeq]
    cases hnew : EvaluatedPoint.new y mean sigma o with
    | mk p o1 =>
      rw [hnew] at h1 h2
      simp only at h1 h2
      subst h2
      cases p with
      | none => exact ⟨[(toPoint y mean sigma, v)], rfl, hv, trivial⟩
      | some p =>
        simp only
        obtain ⟨calls, h3, h4⟩ := ih { o with log := o.log ++ [(toPoint y mean sigma, v)] }
        refine ⟨(toPoint y mean sigma, v) :: calls, ?_, hv, h4⟩
        split <;> rename_i heq <;> rw [heq] at h3 <;> simp only at h3 <;> rw [h3] <;> simp

theorem evalOrder_faithful (mean : Vec n F) (sigma : F) (ys : List (Vec n F)) (extra : Nat)
    (is : List Nat) (left : Option Nat) (o : Obj n F) :
    ∃ calls, (evalOrder mean sigma ys extra is left o).2 = { o with log := o.log ++ calls } ∧
      Faithful o.f o.log calls := by
  induction is generalizing left o with
  | nil => exact ⟨[], by simp [evalOrder], trivial⟩
  | cons i is ih =>
    rw [evalOrder.eq_def]
    simp only
    split
    · exact ⟨[], by simp, trivial⟩
    · split
      · exact ih left o
      · rename_i y _
        obtain ⟨v, hv, h2, h1⟩ := new_spec y mean sigma o
        simp only [h2]
        obtain ⟨calls, h3, h4⟩ := ih _ { o with log := o.log ++ [(toPoint y mean sigma, v)] }
        refine ⟨(toPoint y mean sigma, v) :: calls, ?_, hv, h4⟩
        rw [h3]; simp

theorem sample_faithful {env : Env n F R} {kind : EvalKind} {sched : Sched} {T : Mat n F}
    {mean : Vec n F} {sigma : F} {mode : Mode} {s s' : Sampler n F R}
    {res : Option (List (EvaluatedPoint n F))}
    (h : s.sample env kind sched T mean sigma mode = .ok (res, s')) :
    ∃ calls, s'.obj = { s.obj with log := s.obj.log ++ calls } ∧
      Faithful s.obj.f s.obj.log calls := by
  unfold Sampler.sample at h
  rw [Outcome.bind_eq_ok] at h
  obtain ⟨⟨ys, r⟩, _, h⟩ := h
  have key : ∀ (er : Option (List (EvaluatedPoint n F)) × Obj n F),
      (match er.1 with
        | none => Outcome.ok (none, ({ s with rng := r, obj := er.2 } : Sampler n F R))
        | some ps => Outcome.ok (some (sortPoints mode ps), { s with
            rng := r, obj := er.2, functionEvals := s.functionEvals + ps.length })) =
        Outcome.ok (res, s') → s'.obj = er.2 := by
    rintro ⟨er, o⟩ h
    cases er <;> simp only [Outcome.ok.injEq, Prod.mk.injEq] at h <;> rw [← h.2]
  cases kind with
  | seq =>
    rw [key _ h]
    exact evalSeq_faithful mean sigma ys s.obj
  | par =>
    rw [key _ h]
    obtain ⟨calls, h1, h2⟩ := evalOrder_faithful mean sigma ys sched.extra
      (sched.order ys.length) none s.obj
    refine ⟨calls, ?_, h2⟩
    rw [← h1]
    show (evalPar sched mean sigma ys s.obj).2 = _
    unfold evalPar
    simp only
    split <;> rfl

/-! ### The generations of an execution -/

/-- A completed generation of an execution. -/
structure Gen (n : Nat) (F : Type) where
  call : NextCall n F
  mean : Vec n F
  sigma : F
  points : List (EvaluatedPoint n F)
  sorted : List (EvaluatedPoint n F)

/-- The history after the given generations. -/
def History.after (mode : Mode) (h : History n F) (gens : List (List (EvaluatedPoint n F))) :
    Outcome (History n F) :=
  gens.foldlM (fun h inds => h.update mode inds) h

/-- The generation counter after an update. -/
theorem update_generation {eigen : Mat n F → Option (Mat n F × Vec n F)} {tree : SplitTree}
    {evals : Nat} {p : Parameters F} {inds : List (EvaluatedPoint n F)} {s s' : State n F}
    {b : Bool} (h : s.update eigen tree evals p inds = .ok (s', b)) :
    s'.generation = s.generation + (if b then 1 else 0) := by
  simp only [State.update, Outcome.bind_eq_ok] at h
  obtain ⟨yw, _, hs, _, rm, _, h⟩ := h
  split at h <;> simp only [Outcome.ok.injEq, Prod.mk.injEq] at h <;>
    obtain ⟨rfl, rfl⟩ := h <;> simp

theorem next_faithful [FltLaws F] {env : Env n F R} {kind : EvalKind} {c c' : CMAES n F R}
    {r : Option (TerminationData n F)} {calls : List (Vec n F × F)}
    (h : c.next env kind = .ok (c', r))
    (hl : c'.sampler.obj.log = c.sampler.obj.log ++ calls) :
    Faithful c.sampler.obj.f c.sampler.obj.log calls := by
  unfold CMAES.next at h
  simp only [Outcome.bind_eq_ok] at h
  obtain ⟨⟨res, s⟩, hs, h⟩ := h
  obtain ⟨calls', hobj, hf⟩ := sample_faithful hs
  have : c'.sampler.obj = s.obj := by
    cases res with
    | none =>
      simp only [Outcome.ok.injEq, Prod.mk.injEq] at h
      rw [← h.1]
    | some inds =>
      simp only [Outcome.bind_eq_ok] at h
      obtain ⟨hist, hh, h⟩ := h
      unfold CMAES.nextInternal at h
      simp only [Outcome.bind_eq_ok] at h
      obtain ⟨⟨st, success⟩, hu, h⟩ := h
      cases success with
      | false =>
        simp only [Bool.false_eq_true, if_false, Outcome.ok.injEq, Prod.mk.injEq] at h
        rw [← h.1]
      | true =>
        simp only [if_true, Outcome.bind_eq_ok] at h
        obtain ⟨c1, hc1, c2, hc2, h⟩ := h
        rw [(((sameSearch_autoPlot hc1).trans (sameSearch_autoPrint hc2)).trans
          (checkTermination_eq_ok h).1).sampler]
  rw [this, hobj] at hl
  simp only [List.append_cancel_left_eq] at hl
  subst hl
  exact hf


/-- Everything that is known about an execution: its generations, and how the counters and the
history follow from them. -/
structure ExecInv (c0 : CMAES n F R) (t : List (NextCall n F)) (c : CMAES n F R)
    (gs : List (Gen n F)) : Prop where
  config : SameConfig c0 c
  log : c.sampler.obj.log = c0.sampler.obj.log ++ allCalls t
  faithful : Faithful c0.sampler.obj.f c0.sampler.obj.log (allCalls t)
  calls : gs.map Gen.call = t.filter fun s => ¬ s.Failed
  sampled : ∀ g ∈ gs, Sampled g.call.kind g.mean g.sigma c0.parameters.mode
    c0.sampler.populationSize g.call.calls g.points g.sorted
  failed : ∀ s ∈ t, s.Failed → (∃ e ∈ s.calls, Flt.isNaN e.2 = true) ∧
    ∃ d, s.result = some d ∧ d.reasons = [.invalidFunctionValue]
  evals : c.sampler.functionEvals =
    c0.sampler.functionEvals + c0.sampler.populationSize * gs.length
  history : c0.history.after c0.parameters.mode (gs.map Gen.sorted) = .ok c.history
  generation : c.state.generation + (gs.filter fun g => g.call.ReportsPosDef).length =
    c0.state.generation + gs.length

theorem exec_inv [FltLaws F] {env : Env n F R} {c0 c : CMAES n F R} {t : List (NextCall n F)}
    (h : Exec env c0 t c) : ∃ gs, ExecInv c0 t c gs := by
  classical
  induction h with
  | refl => exact ⟨[], .refl _, by simp [allCalls], trivial, rfl, by simp, by simp, by simp, rfl,
      by simp⟩
  | quiet _ hq ha ih =>
    obtain ⟨gs, i⟩ := ih
    obtain ⟨s, _⟩ := quiet_sameSearch hq ha
    exact ⟨gs, i.config.trans s.config, by rw [s.sampler, i.log], i.faithful, i.calls, i.sampled,
      i.failed, by rw [s.sampler, i.evals], by rw [s.history, i.history],
      by rw [s.state, i.generation]⟩
  | @next c1 c2 t kind calls r _ hn hl ih =>
    obtain ⟨gs, i⟩ := ih
    obtain ⟨calls', hc, hl', hst, ys, hys, hcase⟩ := next_cases hn
    have e : calls' = calls := List.append_cancel_left (hl'.symm.trans hl)
    subst e
    have hff := next_faithful hn hl
    rw [i.config.f, i.log] at hff
    have hlog : c2.sampler.obj.log = c0.sampler.obj.log ++
        allCalls (t ++ [{ kind, calls := calls', result := r }]) := by
      rw [hl, i.log]; simp [allCalls]
    have hfa : Faithful c0.sampler.obj.f c0.sampler.obj.log
        (allCalls (t ++ [{ kind, calls := calls', result := r }])) := by
      have := i.faithful.append hff
      simpa [allCalls] using this
    rcases hcase with hfail | ⟨ps, inds, hcomp, hps⟩
    · refine ⟨gs, i.config.trans hc, hlog, hfa, ?_, i.sampled, ?_, ?_, ?_, ?_⟩
      · rw [List.filter_append, ← i.calls]
        simp [hfail.failed]
      · intro s hs hsf
        rcases List.mem_append.mp hs with hs | hs
        · exact i.failed s hs hsf
        · rw [List.mem_singleton] at hs
          subst hs
          exact ⟨hfail.nan, _, hfail.result, rfl⟩
      · rw [hfail.evals, i.evals]
      · rw [hfail.history, i.history]
      · rw [hfail.state, i.generation]
    · have hnf := hcomp.not_failed
      refine ⟨gs ++ [⟨⟨kind, calls', r⟩, c1.state.mean, c1.state.sigma, ps, inds⟩],
        i.config.trans hc, hlog, hfa, ?_, ?_, ?_, ?_, ?_, ?_⟩
      · rw [List.filter_append, ← i.calls]
        simp [hnf]
      · intro g hg
        rcases List.mem_append.mp hg with hg | hg
        · exact i.sampled g hg
        · rw [List.mem_singleton] at hg
          subst hg
          have := hcomp.sampled
          rw [i.config.parameters, i.config.populationSize] at this
          exact this
      · intro s hs hsf
        rcases List.mem_append.mp hs with hs | hs
        · exact i.failed s hs hsf
        · rw [List.mem_singleton] at hs
          subst hs
          exact absurd hsf hnf
      · rw [hcomp.evals, i.evals, i.config.populationSize]
        simp [Nat.mul_add, Nat.add_assoc]
      · have h1 := i.history
        have h2 := hcomp.history
        rw [i.config.parameters] at h2
        unfold History.after at h1 ⊢
        rw [List.map_append, List.foldlM_append, h1]
        simp [h2]
      · obtain ⟨success, hu, _, _⟩ := hcomp.update
        have hg := update_generation hu
        have hp := hcomp.posDef_iff
        rw [hu] at hp
        have ig := i.generation
        rw [List.filter_append, List.length_append, List.length_append, hg]
        cases success with
        | false =>
          have : (NextCall.mk kind calls' r).ReportsPosDef := hp.mpr rfl
          simp [this]
          omega
        | true =>
          have : ¬ (NextCall.mk kind calls' r).ReportsPosDef := fun h => by simpa using hp.mp h
          simp [this]
          omega

theorem new_eq_ok {env : Env n F R} {w : World n F} {obj : Obj n F} {o : Options n F}
    {c : CMAES n F R} (h : CMAES.new env w obj o = .ok c) :
    CMAES.validate o = none ∧ c = CMAES.create env w obj o := by
  unfold CMAES.new at h
  split at h
  · simp at h
  · injection h with h; exact ⟨by assumption, h.symm⟩

/-- The part of a freshly built `CMAES` relevant for the search. -/
theorem create_search (env : Env n F R) (w : World n F) (obj : Obj n F) (o : Options n F) :
    (CMAES.create env w obj o).sampler = Sampler.new env o.constraints o.maxResamples
      o.populationSize obj (o.seed.getD env.randomSeed) ∧
    (CMAES.create env w obj o).parameters =
      Parameters.fromOptions o (o.seed.getD env.randomSeed) ∧
    (CMAES.create env w obj o).state = State.new o.initialMean o.initialStepSize ∧
    (CMAES.create env w obj o).history = History.new ∧
    (CMAES.create env w obj o).printGapEvals = o.printGapEvals ∧
    (CMAES.create env w obj o).timeCreated = env.clock w.clockReads ∧
    (CMAES.create env w obj o).world.clockReads = w.clockReads + 1 ∧
    (CMAES.create env w obj o).world.steps = w.steps ∧
    (CMAES.create env w obj o).lastPrintEvals = 0 := by
  cases h : o.printGapEvals <;>
    simp [CMAES.create, World.now, CMAES.addPlotPoint, CMAES.printInitialInfo, CMAES.print,
      World.print, h]

end Cmaes
