import Verif.Spec.Restart
import Verif.Lemmas.Run

/-!
# The restart loop as a sequence of runs
-/

set_option linter.unusedSectionVars false

namespace Cmaes
variable {n : Nat} {F R : Type} [Flt F]
variable {env : Env n F R} {kind : EvalKind} {reuse : Bool}

/-- The facts about one pass through the loop of the restarter that performed a run. -/
structure RunStep (env : Env n F R) (kind : EvalKind) (s s' : RestartState n F R)
    (rec : RunRecord n F R) (control : RestartControl) : Prop where
  zero : s.restarter.strategy.hasZeroMaxRuns = false
  budget : ∀ m, s.restarter.options.maxFunctionEvals = some m → s.functionEvals < m
  time : ∀ m, s.restarter.options.maxTime = some m →
    env.clock s.world.clockReads - s.timeStarted < m
  config : ∃ mean rng1 seed rng2,
    generateInitialMean env.restartRng s.restarter.options.searchStart
      s.restarter.options.searchEnd s.restarter.rng = .ok (mean, rng1) ∧
    env.restartRng.u64 rng1 = (seed, rng2) ∧
    s.restarter.strategy.configure env.restartRng (s.restarter.options.runOptions mean seed)
      s.restarter.options.rangeSize rng2 = .ok (rec.options, s'.restarter.rng)
  real : rec.Real env kind
  obj : (∃ s1, s.takeObjective = .ok (rec.obj, s1) ∧ s'.source = s1.source ∧
    s'.sourceCalls = s1.sourceCalls ∧ s'.stored = s1.stored)
  finish : s.restarter.strategy.finish rec.evals = .ok (s'.restarter.strategy, control)
  options : s'.restarter.options = s.restarter.options
  best : s'.restarter.overallBest = s.restarter.overallBest
  seed : s'.restarter.seed = s.restarter.seed
  timeStarted : s'.timeStarted = s.timeStarted
  evals : s'.functionEvals = s.functionEvals + rec.evals
  runs : s'.runs = s.runs + 1
  records : s'.records = s.records ++ [rec]
  reads : s'.world.clockReads = rec.final.world.clockReads
  built : ∃ w c0 c1, w.clockReads = s.world.clockReads +
      (if s.restarter.options.maxTime.isSome then 1 else 0) ∧
    CMAES.new env w rec.obj rec.options = .ok c0 ∧
    (c1 = c0 ∨ ∃ k, c1 = c0.printRunInfo k) ∧ c1.run env kind = .ok (rec.final, rec.data)

theorem takeObjective_same {s s1 : RestartState n F R} {obj : Obj n F}
    (h : s.takeObjective = .ok (obj, s1)) :
    s1.restarter = s.restarter ∧ s1.timeStarted = s.timeStarted ∧
      s1.functionEvals = s.functionEvals ∧ s1.runs = s.runs ∧ s1.world = s.world ∧
      s1.records = s.records := by
  unfold RestartState.takeObjective at h
  split at h
  · simp only [Outcome.ok.injEq, Prod.mk.injEq] at h
    obtain ⟨_, rfl⟩ := h
    exact ⟨rfl, rfl, rfl, rfl, rfl, rfl⟩
  · simp only [Outcome.bind_eq_ok, Outcome.ok.injEq, Prod.mk.injEq] at h
    obtain ⟨_, _, _, rfl⟩ := h
    exact ⟨rfl, rfl, rfl, rfl, rfl, rfl⟩

theorem RestartState.print_same (s : RestartState n F R) (e : PrintEvent n F) :
    (s.print e).restarter = s.restarter ∧ (s.print e).timeStarted = s.timeStarted ∧
      (s.print e).functionEvals = s.functionEvals ∧ (s.print e).runs = s.runs ∧
      (s.print e).records = s.records ∧ (s.print e).source = s.source ∧
      (s.print e).sourceCalls = s.sourceCalls ∧ (s.print e).stored = s.stored := by
  unfold RestartState.print
  split <;> exact ⟨rfl, rfl, rfl, rfl, rfl, rfl, rfl, rfl⟩

/-- The first two checks passed. -/
def RestartState.Ready (s : RestartState n F R) : Prop :=
  s.restarter.strategy.hasZeroMaxRuns = false ∧
    ∀ m, s.restarter.options.maxFunctionEvals = some m → s.functionEvals < m

/-- All the ways the checks before a run can end. -/
theorem precheck_cases (s : RestartState n F R) :
    (s.restarter.strategy.hasZeroMaxRuns = true ∧ s.precheck env = (some .maxRuns, s)) ∨
    (s.restarter.strategy.hasZeroMaxRuns = false ∧
      (∃ m, s.restarter.options.maxFunctionEvals = some m ∧ m ≤ s.functionEvals) ∧
      s.precheck env = (some .maxFunctionEvals, s)) ∨
    (s.Ready ∧ ∃ w,
      (∃ m, s.restarter.options.maxTime = some m ∧
        m ≤ env.clock s.world.clockReads - s.timeStarted ∧
        s.precheck env = (some .maxTime, { s with world := w })) ∨
      ((∀ m, s.restarter.options.maxTime = some m →
        env.clock s.world.clockReads - s.timeStarted < m) ∧
        s.precheck env = (none, { s with world := w }))) := by
  by_cases h0 : s.restarter.strategy.hasZeroMaxRuns = true
  · exact .inl ⟨h0, by simp [RestartState.precheck, h0]⟩
  rw [Bool.not_eq_true] at h0
  have key : s.Ready → s.precheck env = (match s.restarter.options.maxTime with
      | none => (none, s)
      | some m =>
        let (now, w) := s.world.now env
        let s := { s with world := w }
        if m ≤ now - s.timeStarted then (some .maxTime, s) else (none, s)) := by
    intro hr
    unfold RestartState.precheck
    rw [if_neg (by simp [h0]), if_neg]
    · rfl
    cases hm : s.restarter.options.maxFunctionEvals with
    | none => simp
    | some m => simpa using hr.2 m hm
  by_cases h1 : ∃ m, s.restarter.options.maxFunctionEvals = some m ∧ m ≤ s.functionEvals
  · refine .inr (.inl ⟨h0, h1, ?_⟩)
    obtain ⟨m, hm, hle⟩ := h1
    simp [RestartState.precheck, h0, hm, hle]
  · push Not at h1
    have hr : s.Ready := ⟨h0, h1⟩
    refine .inr (.inr ⟨hr, ?_⟩)
    rw [key hr]
    cases ht : s.restarter.options.maxTime with
    | none => exact ⟨s.world, .inr ⟨by simp, rfl⟩⟩
    | some m =>
      refine ⟨(s.world.now env).2, ?_⟩
      by_cases hle : m ≤ env.clock s.world.clockReads - s.timeStarted
      · refine .inl ⟨m, rfl, hle, ?_⟩
        simp only [World.now, hle, ↓reduceIte]
      · refine .inr ⟨fun m' hm' => ?_, ?_⟩
        · injection hm' with hm'
          subst hm'
          exact not_le.mp hle
        · simp only [World.now, hle, ↓reduceIte]

theorem precheck_none {s s1 : RestartState n F R} (h : s.precheck env = (none, s1)) :
    s.restarter.strategy.hasZeroMaxRuns = false ∧
    (∀ m, s.restarter.options.maxFunctionEvals = some m → s.functionEvals < m) ∧
    (∀ m, s.restarter.options.maxTime = some m →
      env.clock s.world.clockReads - s.timeStarted < m) ∧
    ∃ w, s1 = { s with world := w } ∧ w.clockReads = s.world.clockReads +
      (if s.restarter.options.maxTime.isSome then 1 else 0) := by
  have hc : (s.precheck env).2.world.clockReads = s.world.clockReads +
      (if s.restarter.options.maxTime.isSome then 1 else 0) := by
    rcases precheck_cases (env := env) s with
      ⟨_, h1⟩ | ⟨_, _, h1⟩ | ⟨hr, w, ⟨_, _, _, h1⟩ | ⟨_, h1⟩⟩
    · rw [h1] at h; simp at h
    · rw [h1] at h; simp at h
    · rw [h1] at h; simp at h
    · unfold RestartState.precheck
      have hb := hr.2
      revert hb
      simp only [hr.1, Bool.false_eq_true, ↓reduceIte, World.now]
      cases s.restarter.options.maxFunctionEvals with
      | none =>
        intro _
        cases s.restarter.options.maxTime with
        | none => rfl
        | some m =>
          by_cases hm : m ≤ env.clock s.world.clockReads - s.timeStarted <;>
            simp [hm]
      | some b =>
        intro hb
        have hb : ¬ b ≤ s.functionEvals := Nat.not_le.mpr (hb b rfl)
        simp only [hb, decide_false, Bool.false_eq_true, ↓reduceIte]
        cases s.restarter.options.maxTime with
        | none => rfl
        | some m =>
          by_cases hm : m ≤ env.clock s.world.clockReads - s.timeStarted <;>
            simp [hm]
  rw [h] at hc
  rcases precheck_cases (env := env) s with
    ⟨_, h1⟩ | ⟨_, _, h1⟩ | ⟨hr, w, ⟨_, _, _, h1⟩ | ⟨h2, h1⟩⟩
  · rw [h1] at h; simp at h
  · rw [h1] at h; simp at h
  · rw [h1] at h; simp at h
  · rw [h1] at h
    simp only [Prod.mk.injEq, true_and] at h
    exact ⟨hr.1, hr.2, h2, w, h.symm, by rw [← h] at hc; exact hc⟩

theorem runStep_of {s s1 s2 : RestartState n F R} {rec : RunRecord n F R}
    {control : RestartControl} (hp : s.precheck env = (none, s1))
    (h : s1.oneRun env kind = .ok (s2, rec, control)) : RunStep env kind s s2 rec control := by
  obtain ⟨h0, h1, h2, w, rfl, hw⟩ := precheck_none hp
  unfold RestartState.oneRun at h
  simp only [Outcome.bind_eq_ok] at h
  obtain ⟨⟨mean, rng1⟩, hm, ⟨obj, s3⟩, ho, ⟨opts, rng3⟩, hc, h⟩ := h
  obtain ⟨e1, e2, e3, e4, e5, e6⟩ := takeObjective_same ho
  simp only at e1 e2 e3 e4 e5 e6 h hc ho hm
  split at h
  · simp at h
  rename_i c hn
  simp only [Outcome.bind_eq_ok] at h
  obtain ⟨⟨c', d⟩, hr, ⟨st, ctl⟩, hf, h⟩ := h
  simp only [Outcome.ok.injEq, Prod.mk.injEq] at h
  obtain ⟨rfl, rfl, rfl⟩ := h
  have hps := fun (s : RestartState n F R) (e : PrintEvent n F) => s.print_same e
  rw [e1] at hf hc
  have ho' : ∃ s1, s.takeObjective = .ok (obj, s1) ∧ s3.source = s1.source ∧
      s3.sourceCalls = s1.sourceCalls ∧ s3.stored = s1.stored := by
    unfold RestartState.takeObjective at ho ⊢
    simp only at ho
    cases hs : s.stored with
    | some x =>
      rw [hs] at ho
      simp only [Outcome.ok.injEq, Prod.mk.injEq] at ho
      obtain ⟨rfl, rfl⟩ := ho
      exact ⟨_, rfl, rfl, rfl, rfl⟩
    | none =>
      rw [hs] at ho
      simp only [Outcome.bind_eq_ok, Outcome.ok.injEq, Prod.mk.injEq] at ho ⊢
      obtain ⟨⟨o1, sr⟩, hcl, rfl, rfl⟩ := ho
      exact ⟨_, ⟨(o1, sr), hcl, rfl, rfl⟩, rfl, rfl, rfl⟩
  refine
    { zero := h0, budget := h1, time := h2, config := ?_, real := ?_, obj := ?_, finish := ?_,
      options := ?_, best := ?_, seed := ?_, timeStarted := ?_, evals := ?_, runs := ?_,
      records := ?_, reads := ?_, built := ?_ }
  · refine ⟨mean, rng1, (env.restartRng.u64 rng1).1, (env.restartRng.u64 rng1).2, hm, rfl, ?_⟩
    rw [(hps _ _).1]
    exact hc
  · refine ⟨_, c, _, hn, ?_, hr⟩
    split
    · exact .inr ⟨_, rfl⟩
    · exact .inl rfl
  · obtain ⟨sx, a1, a2, a3, a4⟩ := ho'
    refine ⟨sx, a1, ?_, ?_, ?_⟩ <;> simp only [hps] <;> assumption
  · simp only [hps]
    exact hf
  rotate_left 7
  · unfold RestartState.print
    split <;> rfl
  · refine ⟨_, c, _, by rw [e5]; exact hw, hn, ?_, hr⟩
    split
    · exact .inr ⟨_, rfl⟩
    · exact .inl rfl
  all_goals simp only [hps, e1, e2, e3, e4, e6]
  all_goals rfl

/-- All the ways the checks after a run can end. -/
theorem postcheck_cases (s : RestartState n F R) (rec : RunRecord n F R)
    (control : RestartControl) :
    (rec.Invalid ∧ s.postcheck rec control = (some .invalidFunctionValue, s)) ∨
    (¬ rec.Invalid ∧ ∃ best, best = (match rec.final.overallBestIndividual with
        | some x => updateBestIndividual s.restarter.options.mode s.restarter.overallBest x
        | none => s.restarter.overallBest) ∧
      ((rec.HitTarget ∧ s.postcheck rec control =
          (some .funTarget, { s with restarter := { s.restarter with overallBest := best } })) ∨
       (¬ rec.HitTarget ∧ control = .maxRunsReached ∧ s.postcheck rec control =
          (some .maxRuns, { s with restarter := { s.restarter with overallBest := best } })) ∨
       (¬ rec.HitTarget ∧ control = .continue ∧ s.postcheck rec control =
          (none, { s with restarter := { s.restarter with overallBest := best } })))) := by
  have hi : (rec.data.reasons.any (· == .invalidFunctionValue)) = decide rec.Invalid := by
    rw [Bool.eq_iff_iff, decide_eq_true_iff]
    simp [RunRecord.Invalid]
  have ht : (rec.data.reasons.any (· == .funTarget)) = decide rec.HitTarget := by
    rw [Bool.eq_iff_iff, decide_eq_true_iff]
    simp [RunRecord.HitTarget]
  unfold RestartState.postcheck
  simp only [hi, ht]
  by_cases h1 : rec.Invalid
  · exact .inl ⟨h1, by simp [h1]⟩
  · refine .inr ⟨h1, _, rfl, ?_⟩
    simp only [h1, decide_false, Bool.false_eq_true, ↓reduceIte]
    by_cases h2 : rec.HitTarget
    · refine .inl ⟨h2, ?_⟩
      simp only [h2, decide_true, ↓reduceIte]
      cases rec.final.overallBestIndividual <;> rfl
    · refine .inr ?_
      cases control with
      | «continue» =>
        refine .inr ⟨h2, rfl, ?_⟩
        simp only [h2, decide_false, Bool.false_eq_true, ↓reduceIte]
        cases rec.final.overallBestIndividual <;> rfl
      | maxRunsReached =>
        refine .inl ⟨h2, rfl, ?_⟩
        simp only [h2, decide_false, Bool.false_eq_true, ↓reduceIte]
        cases rec.final.overallBestIndividual <;> rfl

/-- The overall best after a run. -/
def bestAfter (mode : Mode) (best : Option (Individual n F)) (rec : RunRecord n F R) :
    Option (Individual n F) :=
  match rec.final.overallBestIndividual with
  | some x => updateBestIndividual mode best x
  | none => best

/-- `Heads env kind reuse s0 s`: starting the loop in the state `s0`, the state `s` is met at the
start of a pass. -/
inductive Heads (env : Env n F R) (kind : EvalKind) (reuse : Bool) (s0 : RestartState n F R) :
    RestartState n F R → Prop
  | refl : Heads env kind reuse s0 s0
  | step {s s1 s2 s3 : RestartState n F R} {rec : RunRecord n F R} {control : RestartControl} :
      Heads env kind reuse s0 s → s.precheck env = (none, s1) →
      s1.oneRun env kind = .ok (s2, rec, control) → s2.postcheck rec control = (none, s3) →
      Heads env kind reuse s0 (s3.store reuse rec)

/-- The friendly form of `Heads.step`. -/
structure Pass (env : Env n F R) (kind : EvalKind) (reuse : Bool) (s s' : RestartState n F R)
    (rec : RunRecord n F R) : Prop where
  zero : s.restarter.strategy.hasZeroMaxRuns = false
  budget : ∀ m, s.restarter.options.maxFunctionEvals = some m → s.functionEvals < m
  time : ∀ m, s.restarter.options.maxTime = some m →
    env.clock s.world.clockReads - s.timeStarted < m
  config : ∃ mean rng1 seed rng2,
    generateInitialMean env.restartRng s.restarter.options.searchStart
      s.restarter.options.searchEnd s.restarter.rng = .ok (mean, rng1) ∧
    env.restartRng.u64 rng1 = (seed, rng2) ∧
    s.restarter.strategy.configure env.restartRng (s.restarter.options.runOptions mean seed)
      s.restarter.options.rangeSize rng2 = .ok (rec.options, s'.restarter.rng)
  real : rec.Real env kind
  obj : ∃ s1, s.takeObjective = .ok (rec.obj, s1) ∧ s'.source = s1.source ∧
    s'.sourceCalls = s1.sourceCalls ∧
    s'.stored = if reuse then some rec.final.sampler.obj else s1.stored
  finish : s.restarter.strategy.finish rec.evals = .ok (s'.restarter.strategy, .continue)
  options : s'.restarter.options = s.restarter.options
  best : s'.restarter.overallBest =
    bestAfter s.restarter.options.mode s.restarter.overallBest rec
  seed : s'.restarter.seed = s.restarter.seed
  timeStarted : s'.timeStarted = s.timeStarted
  evals : s'.functionEvals = s.functionEvals + rec.evals
  runs : s'.runs = s.runs + 1
  records : s'.records = s.records ++ [rec]
  reads : s'.world.clockReads = rec.final.world.clockReads
  valid : ¬ rec.Invalid
  noTarget : ¬ rec.HitTarget

theorem pass_of {s s1 s2 s3 : RestartState n F R} {rec : RunRecord n F R}
    {control : RestartControl} (hp : s.precheck env = (none, s1))
    (h : s1.oneRun env kind = .ok (s2, rec, control))
    (h3 : s2.postcheck rec control = (none, s3)) :
    Pass env kind reuse s (s3.store reuse rec) rec := by
  have r := runStep_of hp h
  rcases postcheck_cases s2 rec control with ⟨_, e⟩ | ⟨hv, best, hb, ⟨_, e⟩ | ⟨_, _, e⟩ | ⟨ht, hc, e⟩⟩
  · rw [e] at h3; simp at h3
  · rw [e] at h3; simp at h3
  · rw [e] at h3; simp at h3
  rw [e] at h3
  simp only [Prod.mk.injEq, true_and] at h3
  subst h3 hc
  rw [r.options, r.best] at hb
  obtain ⟨sx, a1, a2, a3, a4⟩ := r.obj
  cases reuse with
  | false =>
    exact ⟨r.zero, r.budget, r.time, r.config, r.real, ⟨sx, a1, a2, a3, a4⟩, r.finish, r.options,
      hb, r.seed, r.timeStarted, r.evals, r.runs, r.records, r.reads, hv, ht⟩
  | true =>
    exact ⟨r.zero, r.budget, r.time, r.config, r.real, ⟨sx, a1, a2, a3, rfl⟩, r.finish, r.options,
      hb, r.seed, r.timeStarted, r.evals, r.runs, r.records, r.reads, hv, ht⟩

/-- Induction over the passes of the loop. -/
theorem Heads.ind {s0 : RestartState n F R} {P : RestartState n F R → Prop} (h0 : P s0)
    (hs : ∀ s s' rec, Heads env kind reuse s0 s → P s → Pass env kind reuse s s' rec → P s')
    {s : RestartState n F R} (h : Heads env kind reuse s0 s) : P s := by
  induction h with
  | refl => exact h0
  | step hh h1 h2 h3 ih => exact hs _ _ _ hh ih (pass_of h1 h2 h3)

/-- How the loop ends. -/
inductive LoopEnd (env : Env n F R) (kind : EvalKind) (s s' : RestartState n F R) :
    RestartTerminationReason → Prop
  /-- before a run -/
  | before {r : RestartTerminationReason} (h : s.precheck env = (some r, s')) :
      LoopEnd env kind s s' r
  /-- after a run -/
  | after {r : RestartTerminationReason} {s1 s2 : RestartState n F R} {rec : RunRecord n F R}
      {control : RestartControl} (h1 : s.precheck env = (none, s1))
      (h2 : s1.oneRun env kind = .ok (s2, rec, control))
      (h3 : s2.postcheck rec control = (some r, s')) : LoopEnd env kind s s' r

theorem loop_ok {fuel : Nat} {s0 s s' : RestartState n F R} {r : RestartTerminationReason}
    (hh : Heads env kind reuse s0 s) (h : s.loop env kind reuse fuel = .ok (r, s')) :
    ∃ s1, Heads env kind reuse s0 s1 ∧ LoopEnd env kind s1 s' r := by
  induction fuel generalizing s with
  | zero => simp [RestartState.loop] at h
  | succ fuel ih =>
    unfold RestartState.loop at h
    split at h
    · rename_i r' s1 hp
      simp only [Outcome.ok.injEq, Prod.mk.injEq] at h
      obtain ⟨rfl, rfl⟩ := h
      exact ⟨s, hh, .before hp⟩
    · rename_i s1 hp
      simp only [Outcome.bind_eq_ok] at h
      obtain ⟨⟨s2, rec, control⟩, h1, h⟩ := h
      simp only at h
      split at h
      · rename_i r' s3 h3
        simp only [Outcome.ok.injEq, Prod.mk.injEq] at h
        obtain ⟨rfl, rfl⟩ := h
        exact ⟨s, hh, .after hp h1 h3⟩
      · rename_i s3 h3
        exact ih (hh.step hp h1 h3) h

/-- How a restarter that returned got there: `s1` is the state at the start of the last pass. In the
first case that pass did not perform a run. -/
theorem runInternal_ok {src : ObjSource n F} {r : Restarter n F R} {res : RestartResults n F}
    {s : RestartState n F R} (h : r.runInternal env kind src reuse = .ok (res, s)) :
    res.functionEvals = s.functionEvals ∧ res.runs = s.runs ∧
    res.best = s.restarter.overallBest ∧
    ∃ s1, Heads env kind reuse (r.start env src) s1 ∧
      ((s.records = s1.records ∧ s.functionEvals = s1.functionEvals ∧ s.runs = s1.runs ∧
        s.restarter = s1.restarter ∧ s.sourceCalls = s1.sourceCalls ∧
        ((res.reason = .maxRuns ∧ s1.restarter.strategy.hasZeroMaxRuns = true) ∨
         (res.reason = .maxFunctionEvals ∧ s1.restarter.strategy.hasZeroMaxRuns = false ∧
          ∃ m, s1.restarter.options.maxFunctionEvals = some m ∧ m ≤ s1.functionEvals) ∨
         (res.reason = .maxTime ∧ s1.Ready ∧ ∃ m, s1.restarter.options.maxTime = some m ∧
          m ≤ env.clock s1.world.clockReads - s1.timeStarted))) ∨
       ∃ s2 rec control, RunStep env kind s1 s2 rec control ∧
        s.records = s2.records ∧ s.functionEvals = s2.functionEvals ∧ s.runs = s2.runs ∧
        s.restarter.options = s1.restarter.options ∧ s.sourceCalls = s2.sourceCalls ∧
        ((res.reason = .invalidFunctionValue ∧ rec.Invalid ∧
          s.restarter.overallBest = s1.restarter.overallBest) ∨
         (¬ rec.Invalid ∧ s.restarter.overallBest =
            bestAfter s1.restarter.options.mode s1.restarter.overallBest rec ∧
          ((res.reason = .funTarget ∧ rec.HitTarget) ∨
           (res.reason = .maxRuns ∧ ¬ rec.HitTarget ∧ control = .maxRunsReached))))) := by
  unfold Restarter.runInternal at h
  simp only [Outcome.bind_eq_ok] at h
  obtain ⟨⟨reason, s'⟩, hl, h⟩ := h
  simp only [Outcome.ok.injEq, Prod.mk.injEq] at h
  obtain ⟨rfl, rfl⟩ := h
  have hps := fun (s : RestartState n F R) (e : PrintEvent n F) => s.print_same e
  refine ⟨by simp only [hps], by simp only [hps], by simp only [hps], ?_⟩
  obtain ⟨s1, hh, he⟩ := loop_ok (.refl) hl
  refine ⟨s1, hh, ?_⟩
  simp only [hps]
  cases he with
  | before hp =>
    left
    rcases precheck_cases (env := env) s1 with
      ⟨h0, e⟩ | ⟨h0, hm, e⟩ | ⟨hr, w, ⟨m, h1, h2, e⟩ | ⟨_, e⟩⟩
    · rw [e] at hp
      simp only [Prod.mk.injEq, Option.some.injEq] at hp
      obtain ⟨rfl, rfl⟩ := hp
      exact ⟨rfl, rfl, rfl, rfl, rfl, .inl ⟨rfl, h0⟩⟩
    · rw [e] at hp
      simp only [Prod.mk.injEq, Option.some.injEq] at hp
      obtain ⟨rfl, rfl⟩ := hp
      exact ⟨rfl, rfl, rfl, rfl, rfl, .inr (.inl ⟨rfl, h0, hm⟩)⟩
    · rw [e] at hp
      simp only [Prod.mk.injEq, Option.some.injEq] at hp
      obtain ⟨rfl, rfl⟩ := hp
      exact ⟨rfl, rfl, rfl, rfl, rfl, .inr (.inr ⟨rfl, hr, m, h1, h2⟩)⟩
    · rw [e] at hp; simp at hp
  | after h1 h2 h3 =>
    rename_i sx s2 rec control
    right
    have rs := runStep_of h1 h2
    refine ⟨s2, rec, control, rs, ?_⟩
    rcases postcheck_cases s2 rec control with
      ⟨hv, e⟩ | ⟨hv, best, hb, ⟨ht, e⟩ | ⟨ht, hc, e⟩ | ⟨_, _, e⟩⟩
    · rw [e] at h3
      simp only [Prod.mk.injEq, Option.some.injEq] at h3
      obtain ⟨rfl, rfl⟩ := h3
      exact ⟨rfl, rfl, rfl, rs.options, rfl, .inl ⟨rfl, hv, rs.best⟩⟩
    · rw [e] at h3
      simp only [Prod.mk.injEq, Option.some.injEq] at h3
      obtain ⟨rfl, rfl⟩ := h3
      rw [rs.options, rs.best] at hb
      exact ⟨rfl, rfl, rfl, rs.options, rfl, .inr ⟨hv, hb, .inl ⟨rfl, ht⟩⟩⟩
    · rw [e] at h3
      simp only [Prod.mk.injEq, Option.some.injEq] at h3
      obtain ⟨rfl, rfl⟩ := h3
      rw [rs.options, rs.best] at hb
      exact ⟨rfl, rfl, rfl, rs.options, rfl, .inr ⟨hv, hb, .inr ⟨rfl, ht, hc⟩⟩⟩
    · rw [e] at h3; simp at h3

/-- What is known at the start of a pass. -/
theorem Heads.basic {src : ObjSource n F} {r : Restarter n F R} {s : RestartState n F R}
    (h : Heads env kind reuse (r.start env src) s) :
    s.restarter.options = r.options ∧ s.functionEvals = totalEvals s.records ∧
      s.runs = s.records.length ∧
      ∀ x ∈ s.records, x.Real env kind ∧ ¬ x.Invalid ∧ ¬ x.HitTarget := by
  refine h.ind (P := fun s => s.restarter.options = r.options ∧
    s.functionEvals = totalEvals s.records ∧ s.runs = s.records.length ∧
      ∀ x ∈ s.records, x.Real env kind ∧ ¬ x.Invalid ∧ ¬ x.HitTarget) ?_ ?_
  · exact ⟨rfl, rfl, rfl, by simp [Restarter.start]⟩
  · rintro s s' rec _ ⟨h1, h2, h3, h4⟩ p
    refine ⟨p.options.trans h1, ?_, ?_, ?_⟩
    · rw [p.evals, h2, p.records]; simp [totalEvals]
    · rw [p.runs, h3, p.records]; simp
    · intro x hx
      rw [p.records, List.mem_append, List.mem_singleton] at hx
      rcases hx with hx | rfl
      · exact h4 x hx
      · exact ⟨p.real, p.valid, p.noTarget⟩

theorem snoc_split {α : Type} {l : List α} {a x : α} {pre post : List α}
    (h : l ++ [a] = pre ++ x :: post) :
    (post = [] ∧ pre = l ∧ x = a) ∨ ∃ post', post = post' ++ [a] ∧ l = pre ++ x :: post' := by
  rcases List.eq_nil_or_concat post with rfl | ⟨post', y, rfl⟩
  · obtain ⟨h1, h2⟩ := List.append_inj' h rfl
    injection h2 with h2
    exact .inl ⟨rfl, h1.symm, h2.symm⟩
  · obtain ⟨h1, h2⟩ := List.append_inj' (s₁ := l) (t₁ := [a]) (s₂ := pre ++ x :: post')
      (t₂ := [y]) (by rw [h]; simp) rfl
    injection h2 with h2
    exact .inr ⟨post', by simp [h2], h1⟩

/-- What `build` does. -/
theorem restarter_new {o : RestartOptions n F} {r : Restarter n F R}
    (h : Restarter.new env o = .ok r) :
    r.options = o ∧ r.strategy = o.strategy ∧ r.overallBest = none ∧ 0 < n ∧
      Flt.feq (o.searchEnd - o.searchStart) 0 = false ∧ r.seed = o.seed.getD env.randomSeed ∧
      r.rng = env.restartRng.seed r.seed := by
  unfold Restarter.new at h
  split at h
  · simp at h
  rename_i h1
  split at h
  · simp at h
  rename_i h2
  injection h with h
  subst h
  exact ⟨rfl, rfl, rfl, Nat.pos_of_ne_zero h1, by simpa using h2, rfl, rfl⟩

theorem Heads.did {s0 s : RestartState n F R} (hs0 : s0.records = [])
    (h : Heads env kind reuse s0 s) {pre post : List (RunRecord n F R)} {x : RunRecord n F R}
    (hs : s.records = pre ++ x :: post) :
    ∃ sk sk' control, Heads env kind reuse s0 sk ∧ sk.records = pre ∧
      RunStep env kind sk sk' x control := by
  induction h generalizing post with
  | refl => rw [hs0] at hs; simp at hs
  | @step s s1 s2 s3 rec control hh h1 h2 h3 ih =>
    rw [(pass_of (reuse := reuse) h1 h2 h3).records] at hs
    rcases snoc_split hs with ⟨_, rfl, rfl⟩ | ⟨post', _, hs'⟩
    · exact ⟨s, s2, control, hh, rfl, runStep_of h1 h2⟩
    · exact ih hs'

/-- The pass in which a run took place. -/
theorem did_run {src : ObjSource n F} {r : Restarter n F R} {res : RestartResults n F}
    {s : RestartState n F R} (h : r.runInternal env kind src reuse = .ok (res, s))
    {pre post : List (RunRecord n F R)} {x : RunRecord n F R} (hs : s.records = pre ++ x :: post) :
    ∃ sk sk' control, Heads env kind reuse (r.start env src) sk ∧ sk.records = pre ∧
      RunStep env kind sk sk' x control := by
  obtain ⟨_, _, _, s1, hh, hc⟩ := runInternal_ok h
  rcases hc with ⟨e1, _⟩ | ⟨s2, rec, control, rs, e1, _⟩
  · rw [e1] at hs
    exact hh.did rfl hs
  · rw [e1, rs.records] at hs
    rcases snoc_split hs with ⟨_, rfl, rfl⟩ | ⟨post', _, hs'⟩
    · exact ⟨s1, s2, control, hh, rfl, rs⟩
    · exact hh.did rfl hs'

/-- The pass in which a run took place. -/
theorem did_run_mem {src : ObjSource n F} {r : Restarter n F R} {res : RestartResults n F}
    {s : RestartState n F R} (h : r.runInternal env kind src reuse = .ok (res, s))
    {x : RunRecord n F R} (hx : x ∈ s.records) :
    ∃ sk sk' control, Heads env kind reuse (r.start env src) sk ∧
      RunStep env kind sk sk' x control := by
  obtain ⟨pre, post, hs⟩ := List.append_of_mem hx
  obtain ⟨sk, sk', control, h1, _, h2⟩ := did_run h hs
  exact ⟨sk, sk', control, h1, h2⟩

/-- The two strategies are of the same kind. -/
def Strategy.SameKind : Strategy F → Strategy F → Prop
  | .local _, .local _ => True
  | .ipop _, .ipop _ => True
  | .bipop _, .bipop _ => True
  | _, _ => False

theorem finish_sameKind {st st' : Strategy F} {k : Nat} {c : RestartControl}
    (h : st.finish k = .ok (st', c)) : st.SameKind st' := by
  unfold Strategy.finish at h
  cases st with
  | «local» l =>
    simp only [Outcome.ok.injEq, Prod.mk.injEq] at h
    rw [← h.1]; trivial
  | ipop l =>
    simp only [Outcome.bind_eq_ok, Outcome.ok.injEq, Prod.mk.injEq] at h
    obtain ⟨_, _, h, _⟩ := h
    rw [← h]; trivial
  | bipop b =>
    simp only at h
    split at h
    · simp only [Outcome.ok.injEq, Prod.mk.injEq] at h
      rw [← h.1]; trivial
    · simp only [Outcome.bind_eq_ok, Outcome.ok.injEq, Prod.mk.injEq] at h
      obtain ⟨_, _, h, _⟩ := h
      rw [← h]; trivial

theorem Strategy.SameKind.trans {a b c : Strategy F} (h : a.SameKind b) (h' : b.SameKind c) :
    a.SameKind c := by
  cases a <;> cases b <;> cases c <;> first | trivial | exact h.elim | exact h'.elim

theorem Heads.sameKind {src : ObjSource n F} {r : Restarter n F R} {s : RestartState n F R}
    (h : Heads env kind reuse (r.start env src) s) : r.strategy.SameKind s.restarter.strategy := by
  refine h.ind (P := fun s => r.strategy.SameKind s.restarter.strategy) ?_ ?_
  · show r.strategy.SameKind r.strategy
    cases r.strategy <;> trivial
  · rintro s s' rec _ h1 p
    exact h1.trans (finish_sameKind p.finish)

end Cmaes
