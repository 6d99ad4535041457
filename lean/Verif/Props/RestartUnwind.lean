import Verif.Props.Unwind
import Verif.Props.Restart
import Verif.Lemmas.TwoMethods
import Verif.Spec.RestartUnwind

/-!
# C108: panics of user code inside a restarter
-/

set_option linter.unusedSectionVars false

namespace Cmaes
variable {n : Nat} {F R : Type} [Flt F] [FltLaws F] {env : Env n F R} {kind : EvalKind}

/-- Constraints that never panic. -/
def NoConstraintPanic (n : Nat) (constraints : Option (Constraint F)) : Prop :=
  ∀ k, constraints = some k → ∀ x : Vec n F, ∃ b, k (List.ofFn x) = .ok b

/-- What `run` sees if the objective returns NaN instead of panicking. -/
def asFailedRun (pan : Panics n F) :
    Ended (CMAES n F R) (CMAES n F R × TerminationData n F) → CMAES n F R × TerminationData n F
  | .returned (c, d) => (c.silenced pan, d)
  | .unwound c => (c.silenced pan, (c.silenced pan).terminationData [.invalidFunctionValue])

theorem runLoop_silenced (pan : Panics n F) (fuel : Nat) (c : CMAES n F R)
    (hk : NoConstraintPanic n c.sampler.constraints) :
    (c.silenced pan).runLoop env kind fuel =
      (c.runLoopU env pan kind fuel >>= fun x => .ok (asFailedRun pan x)) := by
  induction fuel generalizing c with
  | zero => rfl
  | succ fuel ih =>
    unfold CMAES.runLoop CMAES.runLoopU
    have h := c85_silenced (env := env) pan c kind hk
    rw [h]
    simp only [bind_assoc, Outcome.ok_bind]
    cases hx : c.nextU env pan kind with
    | panic p => rfl
    | diverge => rfl
    | ok x =>
      rcases x with ⟨c1, _ | d⟩ | c1
      · simp only [Outcome.ok_bind, asFailure]
        refine ih c1 ?_
        rw [hx, Outcome.ok_bind] at h
        obtain ⟨_, hc, _⟩ := next_cases h
        have e : c1.sampler.constraints = c.sampler.constraints := hc.constraints
        rw [e]
        exact hk
      · rfl
      · rfl

/-- The same for `run`. -/
def afterRun (pan : Panics n F) :
    Ended (CMAES n F R) (CMAES n F R × TerminationData n F) → CMAES n F R × TerminationData n F
  | .returned (c, d) => (c.silenced pan, d)
  | .unwound c => ((c.silenced pan).runInternal
      ((c.silenced pan).terminationData [.invalidFunctionValue]),
      (c.silenced pan).terminationData [.invalidFunctionValue])

theorem runInternal_seen (c : CMAES n F R) (d : TerminationData n F) :
    (c.runInternal d).sampler = c.sampler ∧ c.world.out <+: (c.runInternal d).world.out := by
  have h1 : c.addPlotPoint.sampler = c.sampler ∧ c.addPlotPoint.world.out = c.world.out := ⟨rfl, rfl⟩
  unfold CMAES.runInternal
  simp only
  split
  · unfold CMAES.printFinalInfo
    simp only
    split
    · exact ⟨rfl, ⟨_, (List.append_assoc _ _ _).symm⟩⟩
    · exact ⟨rfl, ⟨_, rfl⟩⟩
  · exact ⟨rfl, List.prefix_rfl⟩

theorem runInternal_silenced (pan : Panics n F) (c : CMAES n F R) (d : TerminationData n F) :
    (c.silenced pan).runInternal d = (c.runInternal d).silenced pan := by
  have h := runInternal_withF (f := (c.sampler.obj.silenced pan).f) c d
  have hf := (runInternal_seen c d).1
  have e : c.silenced pan = c.withF (c.sampler.obj.silenced pan).f := rfl
  rw [e, h]
  unfold CMAES.silenced
  rw [hf]
  unfold CMAES.withF
  rw [hf]
  rfl

theorem run_silenced (pan : Panics n F) (c : CMAES n F R)
    (hk : NoConstraintPanic n c.sampler.constraints) :
    (c.silenced pan).run env kind = (c.runU env pan kind >>= fun x => .ok (afterRun pan x)) := by
  unfold CMAES.run CMAES.runU
  rw [runLoop_silenced pan _ c hk]
  simp only [bind_assoc, Outcome.ok_bind]
  refine congrArg _ (funext fun x => ?_)
  rcases x with ⟨c, d⟩ | c
  · simp only [asFailedRun, Outcome.ok_bind, afterRun, runInternal_silenced]
  · rfl

/-! ### One run -/

/-- A closure whose objective functions return NaN instead of panicking. -/
def ObjSource.silenced (pan : RestartPanics n F) : ObjSource n F → ObjSource n F
  | .factory get => .factory fun logs => (get logs).silenced (pan logs)
  | .once obj => .once (obj.map (Obj.silenced (pan [])))

/-- The restarter `s'` does with objective functions that return NaN what `s` does with objective
functions that may panic. If the objective function is kept, the panics do not depend on the run. -/
structure Quietened (pan : RestartPanics n F) (reuse : Bool) (s s' : RestartState n F R) :
    Prop where
  rest : s' = { s with
    source := s.source.silenced pan, stored := s'.stored, records := s'.records }
  calls : s'.calls = s.calls
  kept : (reuse = false ∧ (∃ get, s.source = .factory get) ∧ s.stored = none ∧ s'.stored = none) ∨
    (∀ logs, pan logs = pan []) ∧ s'.stored = s.stored.map (Obj.silenced (pan []))

variable {pan : RestartPanics n F} {reuse : Bool} {s s' : RestartState n F R}

theorem Quietened.take (h : Quietened pan reuse s s') :
    (∃ p, s.takeObjective = .panic p ∧ s'.takeObjective = .panic p) ∨
    ∃ obj s1 s1', s.takeObjective = .ok (obj, s1) ∧
      s'.takeObjective = .ok (obj.silenced (pan s.calls), s1') ∧ Quietened pan reuse s1 s1' ∧
      s1.calls = s.calls ∧ s1.restarter = s.restarter ∧ s1.world = s.world ∧ s1.runs = s.runs := by
  obtain ⟨hr, hc, hk⟩ := h
  generalize s'.stored = st at hr hk
  generalize s'.records = rs at hr
  subst hr
  cases s with
  | mk r ts fe runs w src sc sto recs =>
  have hc : rs.map (fun r => r.final.sampler.obj.log) =
    recs.map fun r => r.final.sampler.obj.log := hc
  simp only at hk
  rcases hk with ⟨rfl, ⟨get, rfl⟩, rfl, rfl⟩ | ⟨h1, rfl⟩
  · right
    refine ⟨_, _, _, rfl, congrArg (fun l => Outcome.ok ((get l).silenced (pan l), _)) hc, ?_, rfl, rfl, rfl, rfl⟩
    exact ⟨rfl, hc, .inl ⟨rfl, ⟨get, rfl⟩, rfl, rfl⟩⟩
  · cases sto with
    | some obj =>
      right
      refine ⟨obj, _, _, rfl, congrArg (fun q => Outcome.ok (obj.silenced q, _)) (h1 _).symm, ?_, rfl, rfl, rfl, rfl⟩
      exact ⟨rfl, hc, .inr ⟨h1, rfl⟩⟩
    | none =>
      cases src with
      | factory get =>
        right
        refine ⟨_, _, _, rfl, congrArg (fun l => Outcome.ok ((get l).silenced (pan l), _)) hc, ?_, rfl, rfl, rfl, rfl⟩
        exact ⟨rfl, hc, .inr ⟨h1, rfl⟩⟩
      | once obj =>
        cases obj with
        | none => exact .inl ⟨_, rfl, rfl⟩
        | some obj =>
          right
          refine ⟨obj, _, _, rfl, congrArg (fun q => Outcome.ok (obj.silenced q, _)) (h1 _).symm, ?_, rfl, rfl, rfl, rfl⟩
          exact ⟨rfl, hc, .inr ⟨h1, rfl⟩⟩

theorem new_silenced (p : Panics n F) (w : World n F) (obj : Obj n F) (o : Options n F) :
    CMAES.new env w (obj.silenced p) o = (CMAES.new env w obj o).map (CMAES.silenced p) := by
  unfold CMAES.new
  cases CMAES.validate o with
  | some e => rfl
  | none =>
    show Except.ok _ = Except.ok _
    congr 1
    unfold CMAES.create
    by_cases hg : o.printGapEvals.isSome = true
    · simp only [CMAES.addPlotPoint, hg, if_true]; rfl
    · simp only [CMAES.addPlotPoint, hg]; rfl

theorem configure_constraints {st : Strategy F} {o o' : Options n F} {size : F} {r r' : R}
    {rng : RngOps R F} (h : st.configure rng o size r = .ok (o', r')) :
    o'.constraints = o.constraints := by
  cases st with
  | «local» st =>
    simp only [Strategy.configure, Outcome.ok.injEq, Prod.mk.injEq] at h
    rw [← h.1]
  | ipop st =>
    simp only [Strategy.configure, Outcome.bind_eq_ok, Outcome.ok.injEq, Prod.mk.injEq] at h
    obtain ⟨_, _, h, _⟩ := h
    rw [← h]
  | bipop st =>
    unfold Strategy.configure at h
    simp only at h
    split at h
    · simp only [Outcome.ok.injEq, Prod.mk.injEq] at h
      rw [← h.1]
    · simp only [Outcome.bind_eq_ok, Outcome.ok.injEq, Prod.mk.injEq] at h
      obtain ⟨_, _, h, _⟩ := h
      rw [← h]

theorem finish_outcome (st : Strategy F) (k : Nat) :
    (∃ x, st.finish k = .ok x) ∨ st.finish k = .panic .overflow := by
  have hm : ∀ a b, (∃ x, usizeMul a b = .ok x) ∨ usizeMul a b = .panic .overflow := by
    intro a b
    unfold usizeMul
    split
    · exact .inr rfl
    · exact .inl ⟨_, rfl⟩
  cases st with
  | «local» st => exact .inl ⟨_, rfl⟩
  | ipop st =>
    unfold Strategy.finish
    simp only
    rcases hm st.currentMultiplier st.increaseFactor with ⟨x, hx⟩ | hx
    · rw [hx]; exact .inl ⟨_, rfl⟩
    · rw [hx]; exact .inr rfl
  | bipop st =>
    unfold Strategy.finish
    simp only
    split
    · exact .inl ⟨_, rfl⟩
    · rcases hm st.ipopCurrentMultiplier st.ipopIncreaseFactor with ⟨x, hx⟩ | hx
      · rw [hx]; exact .inl ⟨_, rfl⟩
      · rw [hx]; exact .inr rfl

theorem print_records (s : RestartState n F R) (e : PrintEvent n F) :
    (s.print e).records = s.records := by
  unfold RestartState.print
  split <;> rfl

/-- How one run compares to the same run with objective functions that return NaN. -/
def RunLooksLikeNaN (pan : RestartPanics n F) (reuse : Bool) (s : RestartState n F R)
    (u : Outcome (Ended (RestartLeft n F) (RestartState n F R × RunRecord n F R × RestartControl)))
    (v : Outcome (RestartState n F R × RunRecord n F R × RestartControl)) : Prop :=
  match u with
  | .panic p => v = .panic p
  | .diverge => v = .diverge
  | .ok (.returned (s1, record, control)) => ∃ s1' record', v = .ok (s1', record', control) ∧
      record'.data = record.data ∧ record'.final = record.final.silenced (pan s.calls) ∧
      Quietened pan reuse s1 s1' ∧ s1.restarter.options = s.restarter.options
  | .ok (.unwound l) => v = .panic .overflow ∨ ∃ s1' record' control,
      v = .ok (s1', record', control) ∧ record'.data.reasons = [.invalidFunctionValue] ∧
      s1'.calls = l.calls ∧ l.output <+: s1'.world.out

theorem Quietened.oneRun (h : Quietened pan reuse s s')
    (hk : NoConstraintPanic n s.restarter.options.defaultOptions.constraints) :
    RunLooksLikeNaN pan reuse s (s.oneRunU env pan kind) (s'.oneRun env kind) := by
  have hr : s'.restarter = s.restarter := by rw [h.rest]
  unfold RestartState.oneRunU RestartState.oneRun
  simp only [hr]
  cases hm : generateInitialMean (n := n) env.restartRng s.restarter.options.searchStart
      s.restarter.options.searchEnd s.restarter.rng with
  | panic p => rfl
  | diverge => rfl
  | ok m =>
    obtain ⟨mean, rng⟩ := m
    simp only [Outcome.ok_bind]
    rcases h.take with ⟨p, h1, h2⟩ | ⟨obj, s1, s1', h1, h2, hq, hcalls, hr1, hw1, hn1⟩
    · rw [h1, h2]; rfl
    · rw [h1, h2]
      simp only [Outcome.ok_bind]
      have hr1' : s1'.restarter = s.restarter := by rw [hq.rest]; exact hr1
      have hw1' : s1'.world = s1.world := by rw [hq.rest]
      have hn1' : s1'.runs = s1.runs := by rw [hq.rest]
      rw [hr1', hr1]
      cases hcf : s.restarter.strategy.configure env.restartRng
          (s.restarter.options.runOptions mean (env.restartRng.u64 rng).1)
          (Flt.abs (s.restarter.options.searchEnd - s.restarter.options.searchStart))
          (env.restartRng.u64 rng).2 with
      | panic p => rfl
      | diverge => rfl
      | ok q =>
        obtain ⟨o, rng'⟩ := q
        have hco := configure_constraints hcf
        simp only [Outcome.ok_bind]
        rw [hw1', new_silenced]
        cases hnew : CMAES.new env s1.world obj o with
        | error e => rfl
        | ok c =>
          have hc0 : c.sampler.constraints = s.restarter.options.defaultOptions.constraints := by
            rw [(new_eq_ok hnew).2]
            obtain ⟨_, i, _⟩ := fresh_inv (t := []) (c := c) ⟨s1.world, c, hnew, .refl c⟩
            rw [← (new_eq_ok hnew).2, i.constraints, hco]
            rfl
          simp only [Except.map]
          generalize hc1 : (if s.restarter.options.enablePrinting = true then
            c.printRunInfo (s1.runs + 1) else c) = c1
          have e1 : (if s.restarter.options.enablePrinting = true then
              (c.silenced (pan s.calls)).printRunInfo (s1'.runs + 1) else c.silenced (pan s.calls)) =
              c1.silenced (pan s.calls) := by
            rw [hn1', ← hc1]
            split <;> rfl
          have hk1 : NoConstraintPanic n c1.sampler.constraints := by
            have : c1.sampler.constraints = c.sampler.constraints := by
              rw [← hc1]
              split <;> rfl
            rw [this, hc0]
            exact hk
          rw [e1, run_silenced _ _ hk1]
          show RunLooksLikeNaN pan reuse s (c1.runU env (pan s.calls) kind >>= _) _
          cases hU : c1.runU env (pan s.calls) kind with
          | panic p => rfl
          | diverge => rfl
          | ok x =>
            rcases x with ⟨c2, d⟩ | c2
            · simp only [Outcome.ok_bind, afterRun]
              rw [show (c2.silenced (pan s.calls)).functionEvals = c2.functionEvals from rfl]
              rcases finish_outcome s.restarter.strategy c2.functionEvals with ⟨y, hy⟩ | hy
              · rw [hy]
                simp only [Outcome.ok_bind]
                refine ⟨_, _, rfl, rfl, rfl, ?_, ?_⟩
                · obtain ⟨hqr, hqc, hqk⟩ := hq
                  have hcalls' : s1'.records.map (fun r => r.final.sampler.obj.log) ++
                      [c2.sampler.obj.log] = s1.records.map (fun r => r.final.sampler.obj.log) ++
                      [c2.sampler.obj.log] := congrArg (· ++ _) hqc
                  generalize s1'.stored = st at hqr hqk
                  generalize s1'.records = rs at hqr hcalls'
                  subst hqr
                  unfold RestartState.print
                  cases s.restarter.options.enablePrinting with
                  | false =>
                    refine ⟨rfl, ?_, hqk⟩
                    unfold RestartState.calls
                    simp only [List.map_append, List.map_cons, List.map_nil]
                    exact hcalls'
                  | true =>
                    refine ⟨rfl, ?_, hqk⟩
                    unfold RestartState.calls
                    simp only [List.map_append, List.map_cons, List.map_nil]
                    exact hcalls'
                · unfold RestartState.print
                  split <;> rfl
              · rw [hy]; rfl
            · simp only [Outcome.ok_bind, afterRun]
              rcases finish_outcome s.restarter.strategy
                  ((c2.silenced (pan s.calls)).runInternal ((c2.silenced (pan s.calls)).terminationData
                    [.invalidFunctionValue])).functionEvals with ⟨y, hy⟩ | hy
              · rw [hy]
                have hseen := runInternal_seen (c2.silenced (pan s.calls))
                  ((c2.silenced (pan s.calls)).terminationData [.invalidFunctionValue])
                refine .inr ⟨_, _, _, rfl, rfl, ?_, ?_⟩
                · have : s1'.calls ++ [c2.sampler.obj.log] = s.calls ++ [c2.sampler.obj.log] := by
                    rw [hq.calls, hcalls]
                  show List.map _ ((RestartState.print _ _).records ++ [_]) = _
                  rw [print_records, List.map_append, List.map_singleton]
                  refine Eq.trans ?_ this
                  unfold CMAES.intoObjectiveFunction
                  rw [hseen.1]
                  rfl
                · unfold RestartState.print
                  simp only
                  split
                  · exact hseen.2.trans ⟨_, rfl⟩
                  · exact hseen.2
              · rw [hy]; exact .inl rfl

/-! ### The loop -/

theorem Quietened.precheck (h : Quietened pan reuse s s') :
    (s'.precheck env).1 = (s.precheck env).1 ∧
    Quietened pan reuse (s.precheck env).2 (s'.precheck env).2 ∧
    (s.precheck env).2.restarter.options = s.restarter.options := by
  obtain ⟨hr, hc, hk⟩ := h
  generalize s'.stored = st at hr hk
  generalize s'.records = rs at hr
  subst hr
  unfold RestartState.precheck
  simp only
  repeat' split
  all_goals exact ⟨rfl, ⟨rfl, hc, hk⟩, rfl⟩

theorem Quietened.postcheck (h : Quietened pan reuse s s') {record record' : RunRecord n F R}
    {p : Panics n F} (hd : record'.data = record.data)
    (hf : record'.final = record.final.silenced p) (control : RestartControl) :
    (s'.postcheck record' control).1 = (s.postcheck record control).1 ∧
    Quietened pan reuse (s.postcheck record control).2 (s'.postcheck record' control).2 ∧
    (s.postcheck record control).2.restarter.options = s.restarter.options := by
  obtain ⟨hr, hc, hk⟩ := h
  generalize s'.stored = st at hr hk
  generalize s'.records = rs at hr
  subst hr
  have hb : record'.final.overallBestIndividual = record.final.overallBestIndividual := by
    rw [hf]; rfl
  unfold RestartState.postcheck
  rw [hd, hb]
  split
  · exact ⟨rfl, ⟨rfl, hc, hk⟩, rfl⟩
  · cases record.final.overallBestIndividual with
    | none =>
      simp only
      split
      · exact ⟨rfl, ⟨rfl, hc, hk⟩, rfl⟩
      · cases control <;> exact ⟨rfl, ⟨rfl, hc, hk⟩, rfl⟩
    | some b =>
      simp only
      split
      · exact ⟨rfl, ⟨rfl, hc, hk⟩, rfl⟩
      · cases control <;> exact ⟨rfl, ⟨rfl, hc, hk⟩, rfl⟩

theorem Quietened.store (h : Quietened pan reuse s s') {record record' : RunRecord n F R}
    {logs : List (List (Vec n F × F))} (hf : record'.final = record.final.silenced (pan logs)) :
    Quietened pan reuse (s.store reuse record) (s'.store reuse record') ∧
    (s.store reuse record).restarter.options = s.restarter.options := by
  obtain ⟨hr, hc, hk⟩ := h
  generalize s'.stored = st at hr hk
  generalize s'.records = rs at hr
  subst hr
  unfold RestartState.store
  cases reuse with
  | false => exact ⟨⟨rfl, hc, hk⟩, rfl⟩
  | true =>
    rcases hk with ⟨h1, _⟩ | ⟨h1, _⟩
    · cases h1
    · refine ⟨⟨rfl, hc, .inr ⟨h1, ?_⟩⟩, rfl⟩
      simp only [if_true, Option.map_some]
      rw [hf, h1]
      rfl

/-- How the loop compares to the same loop with objective functions that return NaN. -/
def LoopLooksLikeNaN (pan : RestartPanics n F) (reuse : Bool)
    (u : Outcome (Ended (RestartLeft n F) (RestartTerminationReason × RestartState n F R)))
    (v : Outcome (RestartTerminationReason × RestartState n F R)) : Prop :=
  match u with
  | .panic p => v = .panic p
  | .diverge => v = .diverge
  | .ok (.returned (r, s)) => ∃ s', v = .ok (r, s') ∧ Quietened pan reuse s s'
  | .ok (.unwound l) => v = .panic .overflow ∨
    ∃ s', v = .ok (.invalidFunctionValue, s') ∧ s'.calls = l.calls ∧ l.output <+: s'.world.out

theorem Quietened.loop (fuel : Nat) (h : Quietened pan reuse s s')
    (hk : NoConstraintPanic n s.restarter.options.defaultOptions.constraints) :
    LoopLooksLikeNaN pan reuse (s.loopU env pan kind reuse fuel) (s'.loop env kind reuse fuel) := by
  induction fuel generalizing s s' with
  | zero => rfl
  | succ fuel ih =>
    unfold RestartState.loopU RestartState.loop
    obtain ⟨h1, h2, h3⟩ := h.precheck (env := env)
    generalize s.precheck env = a at h1 h2 h3
    generalize s'.precheck env = b at h1 h2 h3
    obtain ⟨a1, a2⟩ := a
    obtain ⟨b1, b2⟩ := b
    simp only at h1 h2 h3
    subst h1
    cases b1 with
    | some r => exact ⟨_, rfl, h2⟩
    | none =>
      simp only
      have ho := h2.oneRun (env := env) (kind := kind) (by rw [h3]; exact hk)
      generalize a2.oneRunU env pan kind = u at ho
      generalize b2.oneRun env kind = v at ho
      rcases u with (⟨s1, record, control⟩ | l) | p | _
      · obtain ⟨s1', record', rfl, hd, hf, hq, hop⟩ := ho
        simp only [Outcome.ok_bind]
        obtain ⟨k1, k2, k3⟩ := hq.postcheck hd hf control
        generalize s1.postcheck record control = a at k1 k2 k3
        generalize s1'.postcheck record' control = b at k1 k2 k3
        obtain ⟨a1, a3⟩ := a
        obtain ⟨b1, b3⟩ := b
        simp only at k1 k2 k3
        subst k1
        cases b1 with
        | some r => exact ⟨_, rfl, k2⟩
        | none =>
          obtain ⟨m1, m2⟩ := k2.store hf
          exact ih m1 (by rw [m2, k3, hop, h3]; exact hk)
      · rcases ho with rfl | ⟨s1', record', control, rfl, hd, hc, hout⟩
        · exact .inl rfl
        · right
          simp only [Outcome.ok_bind]
          have : s1'.postcheck record' control = (some .invalidFunctionValue, s1') := by
            unfold RestartState.postcheck
            rw [hd]
            rfl
          rw [this]
          exact ⟨s1', rfl, hc, hout⟩
      · rw [show v = .panic p from ho]; rfl
      · rw [show v = .diverge from ho]; rfl

theorem runInternal_looksLike {r : Restarter n F R} {src : ObjSource n F}
    (h : (reuse = false ∧ ∃ get, src = .factory get) ∨ ∀ logs, pan logs = pan [])
    (hk : NoConstraintPanic n r.options.defaultOptions.constraints) :
    PanicLooksLikeNaN (r.runInternalU env pan kind src reuse)
      (r.runInternal env kind (src.silenced pan) reuse) := by
  have h0 : Quietened pan reuse (r.start env src) (r.start env (src.silenced pan)) := by
    refine ⟨rfl, rfl, ?_⟩
    rcases h with ⟨h1, h2⟩ | h
    · exact .inl ⟨h1, h2, rfl, rfl⟩
    · exact .inr ⟨h, rfl⟩
  have hl := h0.loop (env := env) (kind := kind) env.restartFuel hk
  unfold Restarter.runInternalU Restarter.runInternal
  generalize (r.start env src).loopU env pan kind reuse env.restartFuel = u at hl
  generalize (r.start env (src.silenced pan)).loop env kind reuse env.restartFuel = v at hl
  have hout : ∀ (a : RestartState n F R) (e : PrintEvent n F), a.world.out <+: (a.print e).world.out := by
    intro a e
    unfold RestartState.print
    split
    · exact ⟨_, rfl⟩
    · exact List.prefix_rfl
  have hcalls : ∀ (a : RestartState n F R) (e : PrintEvent n F), (a.print e).calls = a.calls := by
    intro a e
    unfold RestartState.calls
    rw [print_records]
  rcases u with (⟨reason, s⟩ | l) | p | _
  · obtain ⟨s', rfl, hq⟩ := hl
    have hb : s'.restarter = s.restarter := by rw [hq.rest]
    have he : s'.functionEvals = s.functionEvals := by rw [hq.rest]
    have hn : s'.runs = s.runs := by rw [hq.rest]
    have hw : s'.world = s.world := by rw [hq.rest]
    simp only [Outcome.ok_bind]
    rw [hb, he, hn]
    refine ⟨_, rfl, ?_, ?_⟩
    · rw [hcalls, hcalls, hq.calls]
    · unfold RestartState.print
      rw [hb, hw]
      split
      · rfl
      · exact congrArg _ hw
  · rcases hl with rfl | ⟨s', rfl, hc, ho⟩
    · exact .inl rfl
    · exact .inr ⟨_, _, rfl, rfl, (hcalls _ _).trans hc, ho.trans (hout _ _)⟩
  · rw [show v = .panic p from hl]; rfl
  · rw [show v = .diverge from hl]; rfl

/-- **C108, a panic looks like NaN.** Let the constraints not panic. A restarter whose objective
functions may panic does the same as one whose objective functions return NaN instead: it returns
the same results after the same calls and the same output, or it panics where the other one ends
with `InvalidFunctionValue`, after the same calls and after the beginning of the same output. -/
theorem c108_factory (pan : RestartPanics n F) (get : List (List (Vec n F × F)) → Obj n F)
    (r : Restarter n F R)
    (hk : ∀ k, r.options.defaultOptions.constraints = some k →
      ∀ x : Vec n F, ∃ b, k (List.ofFn x) = .ok b) :
    PanicLooksLikeNaN (r.runU env pan kind get)
      (r.run env kind fun logs => (get logs).silenced (pan logs)) :=
  runInternal_looksLike (.inl ⟨rfl, get, rfl⟩) hk

/-- **C108, with one objective function.** The same for the variants that keep the objective
function. -/
theorem c108_reuse (pan : Panics n F) (obj : Obj n F) (r : Restarter n F R)
    (hk : ∀ k, r.options.defaultOptions.constraints = some k →
      ∀ x : Vec n F, ∃ b, k (List.ofFn x) = .ok b) :
    PanicLooksLikeNaN (r.runWithReuseU env pan kind obj)
      (r.runWithReuse env kind (obj.silenced pan)) :=
  runInternal_looksLike (pan := fun _ => pan) (.inr fun _ => rfl) hk

/-! ### The calls that panicked -/

theorem panickedIn_append {p : Panics n F} {log a b : List (Vec n F × F)} :
    PanickedIn p log (a ++ b) ↔ PanickedIn p log a ∨ PanickedIn p (log ++ a) b := by
  induction a generalizing log with
  | nil => simp [not_panickedIn_nil]
  | cons e a ih =>
    rw [List.cons_append, panickedIn_cons, panickedIn_cons, ih, or_assoc, List.append_assoc]
    rfl

theorem runLoopU_calls {p : Panics n F} {fuel : Nat} {c : CMAES n F R}
    {x : Ended (CMAES n F R) (CMAES n F R × TerminationData n F)}
    (hk : NoConstraintPanic n c.sampler.constraints)
    (h : c.runLoopU env p kind fuel = .ok x) :
    ∃ calls, (∃ c', x = .unwound c' ∧ c'.sampler.obj.log = c.sampler.obj.log ++ calls ∧
        PanickedIn p c.sampler.obj.log calls) ∨
      ∃ c' d, x = .returned (c', d) ∧ c'.sampler.obj.log = c.sampler.obj.log ++ calls ∧
        ¬ PanickedIn p c.sampler.obj.log calls := by
  induction fuel generalizing c with
  | zero => simp [CMAES.runLoopU] at h
  | succ fuel ih =>
    simp only [CMAES.runLoopU, Outcome.bind_eq_ok] at h
    obtain ⟨y, hn, h⟩ := h
    rcases y with ⟨c1, d⟩ | c1
    · obtain ⟨calls, hl, hp⟩ := c85_returned hn
      have hl : c1.sampler.obj.log = c.sampler.obj.log ++ calls := congrArg Obj.log hl
      rcases d with _ | d
      · have hs := c85_silenced (env := env) p c kind hk
        rw [hn, Outcome.ok_bind] at hs
        obtain ⟨_, hc, _⟩ := next_cases hs
        have e : c1.sampler.constraints = c.sampler.constraints := hc.constraints
        obtain ⟨calls', hx⟩ := ih (c := c1) (by rw [e]; exact hk) h
        refine ⟨calls ++ calls', ?_⟩
        rw [hl, List.append_assoc] at hx
        rw [panickedIn_append]
        rcases hx with ⟨c', h1, h2, h3⟩ | ⟨c', d, h1, h2, h3⟩
        · exact .inl ⟨c', h1, h2, .inr h3⟩
        · exact .inr ⟨c', d, h1, h2, fun o => o.elim hp h3⟩
      · simp only [Outcome.ok.injEq] at h
        exact ⟨calls, .inr ⟨c1, d, h.symm, hl, hp⟩⟩
    · simp only [Outcome.ok.injEq] at h
      obtain ⟨_, calls, hl, hp | ⟨_, ⟨k, hk', y, q, hy⟩, _⟩⟩ := c85_intact hn
      · exact ⟨calls, .inl ⟨c1, h.symm, congrArg Obj.log hl, hp⟩⟩
      · obtain ⟨b, hb⟩ := hk k hk' y
        rw [hb] at hy
        cases hy

theorem runU_calls {p : Panics n F} {c : CMAES n F R}
    {x : Ended (CMAES n F R) (CMAES n F R × TerminationData n F)}
    (hk : NoConstraintPanic n c.sampler.constraints) (h : c.runU env p kind = .ok x) :
    ∃ calls, (∃ c', x = .unwound c' ∧ c'.sampler.obj.log = c.sampler.obj.log ++ calls ∧
        PanickedIn p c.sampler.obj.log calls) ∨
      ∃ c' d, x = .returned (c', d) ∧ c'.sampler.obj.log = c.sampler.obj.log ++ calls ∧
        ¬ PanickedIn p c.sampler.obj.log calls := by
  simp only [CMAES.runU, Outcome.bind_eq_ok] at h
  obtain ⟨y, hy, h⟩ := h
  obtain ⟨calls, ⟨c', rfl, h1, h2⟩ | ⟨c', d, rfl, h1, h2⟩⟩ := runLoopU_calls hk hy
  · simp only [Outcome.ok.injEq] at h
    exact ⟨calls, .inl ⟨c', h.symm, h1, h2⟩⟩
  · simp only [Outcome.ok.injEq] at h
    exact ⟨calls, .inr ⟨_, d, h.symm, by rw [(runInternal_seen c' d).1]; exact h1, h2⟩⟩

/-- No call of an objective function has panicked so far, and the objective function of the next
run has seen none that did. -/
structure Unharmed (pan : RestartPanics n F) (reuse : Bool) (s : RestartState n F R) : Prop where
  calls : NoCallPanicked pan s.calls
  kept : (reuse = false ∧ s.stored = none ∧ ∃ get, s.source = .factory get ∧
      ∀ logs, (get logs).log = []) ∨
    ((∀ logs, pan logs = pan []) ∧ (∀ get, s.source ≠ .factory get) ∧
      (∀ b, s.source = .once (some b) → ¬ PanickedIn (pan []) [] b.log) ∧
      ∀ b, s.stored = some b → ¬ PanickedIn (pan []) [] b.log)

theorem noCallPanicked_append {calls : List (List (Vec n F × F))} {l : List (Vec n F × F)}
    (h : NoCallPanicked pan calls) (hl : ¬ PanickedIn (pan calls) [] l) :
    NoCallPanicked pan (calls ++ [l]) := by
  intro pre m post e
  rcases List.eq_nil_or_concat post with rfl | ⟨post', y, rfl⟩
  · obtain ⟨rfl, h2⟩ := List.append_inj' e rfl
    cases h2
    exact hl
  · rw [List.concat_eq_append, ← List.cons_append, ← List.append_assoc] at e
    exact h pre m post' (List.append_inj' e rfl).1

theorem Unharmed.take {obj : Obj n F} {s1 : RestartState n F R} (h : Unharmed pan reuse s)
    (ht : s.takeObjective = .ok (obj, s1)) :
    Unharmed pan reuse s1 ∧ ¬ PanickedIn (pan s.calls) [] obj.log ∧ s1.calls = s.calls ∧
      s1.restarter = s.restarter := by
  obtain ⟨hc, hk⟩ := h
  obtain ⟨re, ti, ev, ru, wo, src, sc, sto, recs⟩ := s
  simp only at hk
  rcases hk with ⟨rfl, rfl, get, rfl, hg⟩ | ⟨h1, h2, h3, h4⟩
  · have ht : Outcome.ok _ = Outcome.ok _ := ht
    simp only [Outcome.ok.injEq, Prod.mk.injEq] at ht
    obtain ⟨rfl, rfl⟩ := ht
    refine ⟨⟨hc, .inl ⟨rfl, rfl, get, rfl, hg⟩⟩, ?_, rfl, rfl⟩
    rw [hg]
    exact not_panickedIn_nil
  · cases sto with
    | some b =>
      have ht : Outcome.ok _ = Outcome.ok _ := ht
      simp only [Outcome.ok.injEq, Prod.mk.injEq] at ht
      obtain ⟨rfl, rfl⟩ := ht
      refine ⟨⟨hc, .inr ⟨h1, h2, h3, fun _ e => (nomatch e)⟩⟩, ?_, rfl, rfl⟩
      rw [h1]
      exact h4 _ rfl
    | none =>
      cases src with
      | factory get => exact absurd rfl (h2 get)
      | once o =>
        cases o with
        | none => cases ht
        | some b =>
          have ht : Outcome.ok _ = Outcome.ok _ := ht
          simp only [Outcome.ok.injEq, Prod.mk.injEq] at ht
          obtain ⟨rfl, rfl⟩ := ht
          refine ⟨⟨hc, .inr ⟨h1, fun _ e => (nomatch e), fun _ e => (nomatch e),
            fun _ e => (nomatch e)⟩⟩, ?_, rfl, rfl⟩
          rw [h1]
          exact h3 _ rfl

theorem Unharmed.oneRun (h : Unharmed pan reuse s)
    (hk : NoConstraintPanic n s.restarter.options.defaultOptions.constraints)
    {x : Ended (RestartLeft n F) (RestartState n F R × RunRecord n F R × RestartControl)}
    (hx : s.oneRunU env pan kind = .ok x) :
    (∃ l, x = .unwound l ∧ LastRunPanicked pan l.calls) ∨
    ∃ s1 record control, x = .returned (s1, record, control) ∧ Unharmed pan reuse s1 ∧
      ¬ PanickedIn (pan s.calls) [] record.final.sampler.obj.log ∧
      s1.restarter.options = s.restarter.options := by
  unfold RestartState.oneRunU at hx
  simp only [Outcome.bind_eq_ok] at hx
  obtain ⟨⟨mean, rng⟩, hm, ⟨obj, s1⟩, ht, ⟨o, rng'⟩, hcf, hx⟩ := hx
  obtain ⟨hu, ho, hcalls, hr1⟩ := h.take ht
  have hco := configure_constraints hcf
  simp only at hx
  cases hnew : CMAES.new env s1.world obj o with
  | error e => rw [hnew] at hx; cases hx
  | ok c =>
    rw [hnew] at hx
    obtain ⟨_, i, _⟩ := fresh_inv (t := []) (c := c) ⟨s1.world, c, hnew, .refl c⟩
    have hc0 : c.sampler.constraints = s.restarter.options.defaultOptions.constraints := by
      rw [i.constraints, hco]
      rfl
    have hc0' : c.sampler.obj = obj := by
      rw [(new_eq_ok hnew).2]
      unfold CMAES.create
      simp only
      split <;> rfl
    simp only [Outcome.bind_eq_ok] at hx
    generalize hc1 : (if s.restarter.options.enablePrinting = true then
      c.printRunInfo (s1.runs + 1) else c) = c1 at hx
    have e1 : c1.sampler = c.sampler := by
      rw [← hc1]
      split <;> rfl
    obtain ⟨y, hy, hx⟩ := hx
    obtain ⟨calls, ⟨c2, rfl, h1, h2⟩ | ⟨c2, d, rfl, h1, h2⟩⟩ :=
      runU_calls (by rw [e1, hc0]; exact hk) hy
    · simp only [Outcome.ok.injEq] at hx
      refine .inl ⟨_, hx.symm, s.calls, _, rfl, h.calls, ?_⟩
      rw [h1, panickedIn_append]
      exact .inr h2
    · simp only [Outcome.bind_eq_ok] at hx
      obtain ⟨⟨strategy, control⟩, hf, hx⟩ := hx
      simp only [Outcome.ok.injEq] at hx
      have hn : ¬ PanickedIn (pan s.calls) [] c2.sampler.obj.log := by
        rw [h1, panickedIn_append, e1, hc0']
        rintro (h | h)
        · exact ho h
        · rw [e1, hc0'] at h2
          exact h2 h
      refine .inr ⟨_, _, _, hx.symm, ⟨?_, ?_⟩, hn, ?_⟩
      · have : NoCallPanicked pan (s1.calls ++ [c2.sampler.obj.log]) := by
          rw [hcalls]
          exact noCallPanicked_append h.calls hn
        unfold RestartState.print
        split <;>
        · unfold RestartState.calls at this ⊢
          simp only [List.map_append]
          exact this
      · have := hu.kept
        unfold RestartState.print
        split <;> exact this
      · unfold RestartState.print
        rw [← hr1]
        split <;> rfl

theorem Unharmed.precheck (h : Unharmed pan reuse s) :
    Unharmed pan reuse (s.precheck env).2 ∧
    (s.precheck env).2.restarter.options = s.restarter.options := by
  obtain ⟨hc, hk⟩ := h
  unfold RestartState.precheck
  simp only
  repeat' split
  all_goals exact ⟨⟨hc, hk⟩, rfl⟩

theorem Unharmed.postcheck (h : Unharmed pan reuse s) (record : RunRecord n F R)
    (control : RestartControl) :
    Unharmed pan reuse (s.postcheck record control).2 ∧
    (s.postcheck record control).2.restarter.options = s.restarter.options := by
  obtain ⟨hc, hk⟩ := h
  unfold RestartState.postcheck
  split
  · exact ⟨⟨hc, hk⟩, rfl⟩
  · cases record.final.overallBestIndividual with
    | none =>
      simp only
      split
      · exact ⟨⟨hc, hk⟩, rfl⟩
      · cases control <;> exact ⟨⟨hc, hk⟩, rfl⟩
    | some b =>
      simp only
      split
      · exact ⟨⟨hc, hk⟩, rfl⟩
      · cases control <;> exact ⟨⟨hc, hk⟩, rfl⟩

theorem Unharmed.loop (fuel : Nat) (h : Unharmed pan reuse s)
    (hk : NoConstraintPanic n s.restarter.options.defaultOptions.constraints)
    {x : Ended (RestartLeft n F) (RestartTerminationReason × RestartState n F R)}
    (hx : s.loopU env pan kind reuse fuel = .ok x) :
    (∃ l, x = .unwound l ∧ LastRunPanicked pan l.calls) ∨
    ∃ r s1, x = .returned (r, s1) ∧ NoCallPanicked pan s1.calls := by
  induction fuel generalizing s with
  | zero => cases hx
  | succ fuel ih =>
    unfold RestartState.loopU at hx
    obtain ⟨h2, h3⟩ := h.precheck (env := env)
    generalize s.precheck env = a at h2 h3 hx
    obtain ⟨a1, a2⟩ := a
    simp only at h2 h3 hx
    cases a1 with
    | some r =>
      simp only [Outcome.ok.injEq] at hx
      exact .inr ⟨_, _, hx.symm, h2.calls⟩
    | none =>
      simp only [Outcome.bind_eq_ok] at hx
      obtain ⟨y, hy, hx⟩ := hx
      rcases h2.oneRun (by rw [h3]; exact hk) hy with ⟨l, rfl, hl⟩ | ⟨s1, rec, ctl, rfl, hu, hr, hop⟩
      · simp only [Outcome.ok.injEq] at hx
        exact .inl ⟨l, hx.symm, hl⟩
      · simp only at hx
        obtain ⟨k2, k3⟩ := hu.postcheck rec ctl
        generalize s1.postcheck rec ctl = a at k2 k3 hx
        obtain ⟨a1, a3⟩ := a
        simp only at k2 k3 hx
        cases a1 with
        | some r =>
          simp only [Outcome.ok.injEq] at hx
          exact .inr ⟨_, _, hx.symm, k2.calls⟩
        | none =>
          refine ih ?_ ?_ hx
          · obtain ⟨hc, hkept⟩ := k2
            refine ⟨by unfold RestartState.store; split <;> exact hc, ?_⟩
            unfold RestartState.store
            rcases hkept with hkept | ⟨g1, g2, g3, g4⟩
            · have : reuse = false := hkept.1
              subst this
              exact .inl hkept
            · cases reuse with
              | false => exact .inr ⟨g1, g2, g3, g4⟩
              | true =>
                refine .inr ⟨g1, g2, g3, ?_⟩
                intro b hb
                simp only [if_true, Option.some.injEq] at hb
                rw [← hb]
                rw [g1] at hr
                exact hr
          · have : (a3.store reuse rec).restarter.options = a3.restarter.options := by
              unfold RestartState.store; split <;> rfl
            rw [this, k3, hop, h3]
            exact hk

theorem runInternalU_calls {r : Restarter n F R} {src : ObjSource n F}
    (h0 : Unharmed pan reuse (r.start env src))
    (hk : NoConstraintPanic n r.options.defaultOptions.constraints)
    {x : Ended (RestartLeft n F) (RestartResults n F × RestartState n F R)}
    (hx : r.runInternalU env pan kind src reuse = .ok x) :
    (∃ l, x = .unwound l ∧ LastRunPanicked pan l.calls) ∨
    ∃ r s1, x = .returned (r, s1) ∧ NoCallPanicked pan s1.calls := by
  unfold Restarter.runInternalU at hx
  simp only [Outcome.bind_eq_ok] at hx
  obtain ⟨y, hy, hx⟩ := hx
  rcases h0.loop _ hk hy with ⟨l, rfl, hl⟩ | ⟨a, s1, rfl, hu⟩
  · simp only [Outcome.ok.injEq] at hx
    exact .inl ⟨l, hx.symm, hl⟩
  · simp only [Outcome.ok.injEq] at hx
    refine .inr ⟨_, _, hx.symm, ?_⟩
    unfold RestartState.calls
    rw [print_records]
    exact hu

/-- **C108, only panics.** A restarter with new objective functions panics only if a call of the
current objective function panicked, and returns only if no call did. -/
theorem c108_factory_calls {get : List (List (Vec n F × F)) → Obj n F} {r : Restarter n F R}
    (hk : ∀ k, r.options.defaultOptions.constraints = some k →
      ∀ x : Vec n F, ∃ b, k (List.ofFn x) = .ok b)
    (hg : ∀ logs, (get logs).log = [])
    {x : Ended (RestartLeft n F) (RestartResults n F × RestartState n F R)}
    (h : r.runU env pan kind get = .ok x) :
    match x with
    | .returned (_, s) => NoCallPanicked pan s.calls
    | .unwound left => LastRunPanicked pan left.calls := by
  rcases runInternalU_calls ⟨by intro pre l post e; simp [RestartState.calls, Restarter.start] at e,
    .inl ⟨rfl, rfl, get, rfl, hg⟩⟩ hk h with ⟨l, rfl, hl⟩ | ⟨_, s1, rfl, hl⟩ <;> exact hl

/-- **C108, only panics, with one objective function.** -/
theorem c108_reuse_calls {p : Panics n F} {obj : Obj n F} {r : Restarter n F R}
    (hk : ∀ k, r.options.defaultOptions.constraints = some k →
      ∀ x : Vec n F, ∃ b, k (List.ofFn x) = .ok b)
    (hg : obj.log = [])
    {x : Ended (RestartLeft n F) (RestartResults n F × RestartState n F R)}
    (h : r.runWithReuseU env p kind obj = .ok x) :
    match x with
    | .returned (_, s) => NoCallPanicked (fun _ => p) s.calls
    | .unwound left => LastRunPanicked (fun _ => p) left.calls := by
  have h0 : Unharmed (fun _ => p) true (r.start env (.once (some obj))) := by
    refine ⟨by intro pre l post e; simp [RestartState.calls, Restarter.start] at e, .inr ⟨fun _ => rfl,
      ?_, ?_, ?_⟩⟩
    · intro g e
      have e : ObjSource.once (some obj) = .factory g := e
      cases e
    · intro b e
      have e : ObjSource.once (some obj) = .once (some b) := e
      cases e
      rw [hg]
      exact not_panickedIn_nil
    · intro b e
      have e : none = some b := e
      cases e
  rcases runInternalU_calls h0 hk h with ⟨l, rfl, hl⟩ | ⟨_, s1, rfl, hl⟩ <;> exact hl

theorem silenced_never {p : Panics n F} (hp : ∀ log x, p log x = false) (obj : Obj n F) :
    obj.silenced p = obj := by
  unfold Obj.silenced
  simp [hp]

/-- **C108, without panics nothing changes.** If the objective functions do not panic, the restarter
does not, and it does the same as in the other properties. -/
theorem c108_conservative {get : List (List (Vec n F × F)) → Obj n F} {r : Restarter n F R}
    (hk : ∀ k, r.options.defaultOptions.constraints = some k →
      ∀ x : Vec n F, ∃ b, k (List.ofFn x) = .ok b)
    (hg : ∀ logs, (get logs).log = []) (hp : ∀ logs log x, pan logs log x = false) :
    (∀ left, r.runU env pan kind get ≠ .ok (.unwound left)) ∧
    PanicLooksLikeNaN (r.runU env pan kind get) (r.run env kind get) := by
  constructor
  · intro left h
    obtain ⟨_, _, _, _, _, _, _, _, _, h⟩ := c108_factory_calls hk hg h
    rw [hp] at h
    cases h
  · have := c108_factory (env := env) (kind := kind) pan get r hk
    rwa [show (fun logs => (get logs).silenced (pan logs)) = get from
      funext fun logs => silenced_never (hp logs) _] at this

/-- **C108, without panics nothing changes, with one objective function.** -/
theorem c108_reuse_conservative {p : Panics n F} {obj : Obj n F} {r : Restarter n F R}
    (hk : ∀ k, r.options.defaultOptions.constraints = some k →
      ∀ x : Vec n F, ∃ b, k (List.ofFn x) = .ok b)
    (hg : obj.log = []) (hp : ∀ log x, p log x = false) :
    (∀ left, r.runWithReuseU env p kind obj ≠ .ok (.unwound left)) ∧
    PanicLooksLikeNaN (r.runWithReuseU env p kind obj) (r.runWithReuse env kind obj) := by
  constructor
  · intro left h
    obtain ⟨_, _, _, _, _, _, _, _, _, h⟩ := c108_reuse_calls hk hg h
    cases (hp _ _).symm.trans h
  · have := c108_reuse (env := env) (kind := kind) p obj r hk
    rwa [silenced_never hp] at this

/-! ### Examples -/

-- Hypotheses of `c108_reuse` and `c108_reuse_calls`: the tenth call panics, in the second of three
-- runs of eight calls.
open Witness in
example : ∃ r left, Restarter.new (wenv 2) (restartOpts (localStrategy 3)) = .ok r ∧
    r.runWithReuseU (wenv 2) (fun log _ => log.length == 9) .seq sphere = .ok (.unwound left) ∧
    left.calls.map List.length = [8, 10] ∧
    LastRunPanicked (fun _ log _ => log.length == 9) left.calls := by
  have h : (match Restarter.new (wenv 2) (restartOpts (localStrategy 3)) with
      | .error _ => false
      | .ok r => (r.runWithReuseU (wenv 2) (fun log _ => log.length == 9) .seq sphere).check
        fun x => match x with
          | .returned _ => false
          | .unwound l => decide (l.calls.map List.length = [8, 10])) = true := by
    decide +kernel
  split at h
  · cases h
  · rename_i r hr
    obtain ⟨x, h1, h2⟩ := Outcome.of_check h
    rcases x with x | l
    · cases h2
    · refine ⟨r, l, hr, h1, of_decide_eq_true h2, c108_reuse_calls ?_ rfl h1⟩
      have : r.options = restartOpts (localStrategy 3) := by
        unfold Restarter.new at hr
        simp only at hr
        repeat' split at hr
        · cases hr
        · cases hr
        · cases hr
          rfl
      rw [this]
      intro k hk
      cases hk

-- Hypotheses of `c108_factory` and `c108_factory_calls`: the objective function of the second run
-- panics in its second call.
open Witness in
example : ∃ r left, Restarter.new (wenv 2) (restartOpts (localStrategy 3)) = .ok r ∧
    r.runU (wenv 2) (fun logs log _ => logs.length == 1 && log.length == 1) .par
      (fun _ => sphere) = .ok (.unwound left) ∧ left.calls.length = 2 := by
  have h : (match Restarter.new (wenv 2) (restartOpts (localStrategy 3)) with
      | .error _ => false
      | .ok r => (r.runU (wenv 2) (fun logs log _ => logs.length == 1 && log.length == 1) .par
        (fun _ => sphere)).check fun x => match x with
          | .returned _ => false
          | .unwound l => decide (l.calls.length = 2)) = true := by
    decide +kernel
  split at h
  · cases h
  · rename_i r hr
    obtain ⟨x, h1, h2⟩ := Outcome.of_check h
    rcases x with x | l
    · cases h2
    · exact ⟨r, l, hr, h1, of_decide_eq_true h2⟩

end Cmaes
