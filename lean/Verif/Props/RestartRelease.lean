import Verif.Model.RestartRelease
import Verif.Props.Release
import Verif.Props.RestartStrategy
import Verif.Props.RestartSetup
import Verif.Props.Build

/-!
# C102: restarts in release builds
-/

set_option linter.unusedSectionVars false

namespace Cmaes
variable {n : Nat} {F R : Type} [Flt F] {env : Env n F R}

theorem usizeMul_cases (a b : Nat) :
    usizeMul a b = .panic .overflow ∨ usizeMul a b = .ok (wrapMul a b) := by
  unfold usizeMul wrapMul
  split
  · exact .inl rfl
  · rename_i h
    exact .inr (by rw [Nat.mod_eq_of_lt (not_le.mp h)])

theorem configure_checked (rng : RngOps R F) (s : Strategy F) (o : Options n F) (size : F) (r : R) :
    CheckedRel Eq (s.configure rng o size r) (.ok (s.configureR rng o size r)) := by
  cases s with
  | «local» s => exact .refl _
  | ipop s =>
    rcases usizeMul_cases o.populationSize s.currentMultiplier with h | h
    · exact .inl (by simp [Strategy.configure, h])
    · exact .of_eq (by simp [Strategy.configure, Strategy.configureR, h])
  | bipop s =>
    cases hl : s.useLr with
    | true => exact .of_eq (by simp [Strategy.configure, Strategy.configureR, hl])
    | false =>
      rcases usizeMul_cases o.populationSize s.ipopCurrentMultiplier with h | h
      · exact .inl (by simp [Strategy.configure, hl, h])
      · exact .of_eq (by simp [Strategy.configure, Strategy.configureR, hl, h])

theorem finish_checked (evals : Nat) (s : Strategy F) :
    CheckedRel Eq (s.finish evals) (.ok (s.finishR evals)) := by
  cases s with
  | «local» s => exact .refl _
  | ipop s =>
    rcases usizeMul_cases s.currentMultiplier s.increaseFactor with h | h
    · exact .inl (by simp [Strategy.finish, h])
    · exact .of_eq (by simp [Strategy.finish, Strategy.finishR, h])
  | bipop s =>
    cases hl : s.useLr with
    | true => exact .of_eq (by simp [Strategy.finish, Strategy.finishR, hl])
    | false =>
      rcases usizeMul_cases s.ipopCurrentMultiplier s.ipopIncreaseFactor with h | h
      · exact .inl (by simp [Strategy.finish, hl, h])
      · exact .of_eq (by simp [Strategy.finish, Strategy.finishR, hl, h])

/-- The release build of a step that is pure there. -/
theorem CheckedRel.bind_pure {α γ : Type} {x : Outcome α} {y : α} {f : α → Outcome γ}
    {g : Outcome γ} (h : CheckedRel Eq x (.ok y)) (hf : CheckedRel Eq (f y) g) :
    CheckedRel Eq (x >>= f) g := by
  rcases h with rfl | h
  · exact .inl rfl
  · cases h with
    | ok h => subst h; exact hf

theorem oneRun_checked (kind : EvalKind) (s : RestartState n F R) :
    CheckedRel Eq (s.oneRun env kind) (s.oneRunR env kind) := by
  unfold RestartState.oneRun RestartState.oneRunR
  dsimp only
  refine .bind (.refl _) ?_
  rintro ⟨mean, rng⟩ _ - - rfl
  dsimp only
  refine .bind (.refl _) ?_
  rintro ⟨obj, s1⟩ _ - - rfl
  dsimp only
  refine .bind_pure (configure_checked _ _ _ _ _) ?_
  generalize s1.restarter.strategy.configureR _ _ _ _ = x
  obtain ⟨options, rng⟩ := x
  dsimp only
  cases CMAES.new env s1.world obj options with
  | error e => exact .refl _
  | ok c =>
    dsimp only
    have hr : CheckedRel Eq ((if s.restarter.options.enablePrinting then c.printRunInfo (s1.runs + 1)
        else c).run env kind) ((if s.restarter.options.enablePrinting then
          c.printRunInfo (s1.runs + 1) else c).runR env kind) := by
      unfold CMAES.run CMAES.runR
      refine .bind (runLoop_checked kind _ _) ?_
      rintro a _ - - rfl
      exact .refl _
    refine .bind hr ?_
    rintro ⟨c', d⟩ _ - - rfl
    dsimp only
    exact .bind_pure (finish_checked _ _) (.refl _)

theorem loop_checked (kind : EvalKind) (reuse : Bool) (fuel : Nat) (s : RestartState n F R) :
    CheckedRel Eq (s.loop env kind reuse fuel) (s.loopR env kind reuse fuel) := by
  induction fuel generalizing s with
  | zero => exact .refl _
  | succ fuel ih =>
    unfold RestartState.loop RestartState.loopR
    rcases s.precheck env with ⟨_ | r, s1⟩
    · dsimp only
      refine .bind (oneRun_checked kind s1) ?_
      rintro ⟨s2, record, control⟩ _ - - rfl
      dsimp only
      rcases s2.postcheck record control with ⟨_ | r, s3⟩
      · exact ih _
      · exact .refl _
    · exact .refl _

/-- **C102, the two profiles.** Unless a build with overflow checks panics because of an overflow, a
release build of a restarter does the same: the same results, after the same runs, with the same
output. -/
theorem c102_same (kind : EvalKind) (src : ObjSource n F) (reuse : Bool) (r : Restarter n F R)
    (h : r.runInternal env kind src reuse ≠ .panic .overflow) :
    r.runInternalR env kind src reuse = r.runInternal env kind src reuse := by
  refine CheckedRel.eq ?_ h
  unfold Restarter.runInternal Restarter.runInternalR
  refine .bind (loop_checked kind reuse _ _) ?_
  rintro a _ - - rfl
  exact .refl _

/-! ### IPOP -/

/-- As `RunRecord.Real`: the record describes a run of a release build that took place. -/
def RunRecord.RealR (env : Env n F R) (kind : EvalKind) (r : RunRecord n F R) : Prop :=
  ∃ w c0 c1, CMAES.new env w r.obj r.options = .ok c0 ∧
    (c1 = c0 ∨ ∃ k, c1 = c0.printRunInfo k) ∧ c1.runR env kind = .ok (r.final, r.data)

/-- Run number `k`, from zero, of IPOP in a release build. -/
def WrapRun (env : Env n F R) (kind : EvalKind) (o : RestartOptions n F) (factor k : Nat)
    (x : RunRecord n F R) : Prop :=
  x.options.populationSize = o.defaultOptions.populationSize * factor ^ k % 2 ^ 64 ∧
    x.options.initialStepSize = o.rangeSize / 2 ∧ x.RealR env kind

/-- The state of an IPOP restarter of a release build after some runs. -/
structure WrapState (env : Env n F R) (kind : EvalKind) (o : RestartOptions n F) (factor : Nat)
    (s : RestartState n F R) : Prop where
  options : s.restarter.options = o
  strategy : s.restarter.strategy =
    .ipop ⟨s.records.length, factor ^ s.records.length % 2 ^ 64, factor⟩
  runs : s.runs = s.records.length
  evals : s.functionEvals = totalEvals s.records
  run : ∀ (k : Nat) (x : RunRecord n F R), s.records[k]? = some x → WrapRun env kind o factor k x

theorem WrapState.congr {kind : EvalKind} {o : RestartOptions n F} {factor : Nat}
    {s s' : RestartState n F R} (h : WrapState env kind o factor s)
    (h1 : s'.restarter.options = s.restarter.options)
    (h2 : s'.restarter.strategy = s.restarter.strategy) (h3 : s'.runs = s.runs)
    (h4 : s'.records = s.records) (h5 : s'.functionEvals = s.functionEvals) :
    WrapState env kind o factor s' :=
  ⟨h1.trans h.options, by rw [h2, h4, h.strategy], by rw [h3, h4, h.runs],
    by rw [h5, h4, h.evals], by rw [h4]; exact h.run⟩

theorem wrap_oneRun {o : RestartOptions n F} {factor : Nat} {kind : EvalKind}
    {s s' : RestartState n F R} {x : RunRecord n F R} {control : RestartControl}
    (hs : WrapState env kind o factor s) (h : s.oneRunR env kind = .ok (s', x, control)) :
    WrapState env kind o factor s' ∧ s'.records.length = s.records.length + 1 ∧
      (control = .continue ↔ s'.records.length < 10) := by
  unfold RestartState.oneRunR at h
  simp only [Outcome.bind_eq_ok] at h
  obtain ⟨⟨mean, rng1⟩, hm, ⟨obj, s3⟩, ho, h⟩ := h
  obtain ⟨e1, e2, e3, e4, e5, e6⟩ := takeObjective_same ho
  simp only [e1, hs.options, hs.strategy, Strategy.configureR, Strategy.finishR] at h
  split at h
  · simp at h
  rename_i c hn
  simp only [Outcome.bind_eq_ok] at h
  obtain ⟨⟨c', d⟩, hr, h⟩ := h
  simp only [Outcome.ok.injEq, Prod.mk.injEq] at h
  obtain ⟨rfl, rfl, rfl⟩ := h
  have hps := fun (s : RestartState n F R) (e : PrintEvent n F) => s.print_same e
  refine ⟨⟨?_, ?_, ?_, ?_, ?_⟩, ?_, ?_⟩
  · simp only [hps]
  · simp only [hps, e6, List.length_append, List.length_cons, List.length_nil, Nat.zero_add,
      wrapMul, Nat.mod_mul_mod, pow_succ]
  · simp only [hps, e4, e6, hs.runs, List.length_append, List.length_cons, List.length_nil]
  · simp only [hps, e3, e6, hs.evals]
    simp [totalEvals, RunRecord.evals]
  · intro k x hx
    simp only [hps, e6] at hx
    rcases Nat.lt_trichotomy k s.records.length with hk | hk | hk
    · rw [List.getElem?_append_left hk] at hx
      exact hs.run k x hx
    · subst hk
      rw [List.getElem?_concat_length] at hx
      injection hx with hx
      subst hx
      refine ⟨?_, rfl, _, c, _, hn, ?_, hr⟩
      · show wrapMul _ _ = _
        rw [wrapMul, Nat.mul_mod_mod]
        rfl
      · split
        · exact .inr ⟨_, rfl⟩
        · exact .inl rfl
    · rw [List.getElem?_eq_none (by simp; omega)] at hx
      cases hx
  · simp only [hps, e6, List.length_append, List.length_cons, List.length_nil]
  · simp only [hps, e6, List.length_append, List.length_cons, List.length_nil, ipopMaxRuns]
    by_cases hlt : 10 ≤ s.records.length + 1
    · simp [hlt]
    · simp [hlt, not_le.mp hlt]

theorem wrap_loop {o : RestartOptions n F} {factor : Nat} {kind : EvalKind} {reuse : Bool}
    (fuel : Nat) {s s' : RestartState n F R} {r : RestartTerminationReason}
    (hs : WrapState env kind o factor s) (hl : s.records.length < 10)
    (h : s.loopR env kind reuse fuel = .ok (r, s')) :
    WrapState env kind o factor s' ∧ s'.records.length ≤ 10 ∧
      (r = .maxRuns → s'.records.length = 10) := by
  induction fuel generalizing s with
  | zero => cases h
  | succ fuel ih =>
    unfold RestartState.loopR at h
    have hz : s.restarter.strategy.hasZeroMaxRuns = false := by rw [hs.strategy]; rfl
    rcases precheck_cases (env := env) s with ⟨h0, _⟩ | ⟨_, _, hp⟩ | ⟨_, w, ⟨_, _, _, hp⟩ | ⟨_, hp⟩⟩
    · rw [hz] at h0; cases h0
    · rw [hp] at h
      simp only [Outcome.ok.injEq, Prod.mk.injEq] at h
      obtain ⟨rfl, rfl⟩ := h
      exact ⟨hs, hl.le, by simp⟩
    · rw [hp] at h
      simp only [Outcome.ok.injEq, Prod.mk.injEq] at h
      obtain ⟨rfl, rfl⟩ := h
      exact ⟨hs.congr rfl rfl rfl rfl rfl, hl.le, by simp⟩
    · rw [hp] at h
      simp only [Outcome.bind_eq_ok] at h
      obtain ⟨⟨s2, x, control⟩, h1, h⟩ := h
      obtain ⟨hw, hlen, hc⟩ := wrap_oneRun (hs.congr (s' := { s with world := w })
        rfl rfl rfl rfl rfl) h1
      simp only at hlen h
      have hle : s2.records.length ≤ 10 := by omega
      rcases postcheck_cases s2 x control with ⟨_, hq⟩ | ⟨_, best, _, ⟨_, hq⟩ | ⟨_, hm, hq⟩ |
        ⟨_, hm, hq⟩⟩
      · rw [hq] at h
        simp only [Outcome.ok.injEq, Prod.mk.injEq] at h
        obtain ⟨rfl, rfl⟩ := h
        exact ⟨hw, hle, by simp⟩
      · rw [hq] at h
        simp only [Outcome.ok.injEq, Prod.mk.injEq] at h
        obtain ⟨rfl, rfl⟩ := h
        exact ⟨hw.congr rfl rfl rfl rfl rfl, hle, by simp⟩
      · rw [hq] at h
        simp only [Outcome.ok.injEq, Prod.mk.injEq] at h
        obtain ⟨rfl, rfl⟩ := h
        refine ⟨hw.congr rfl rfl rfl rfl rfl, hle, fun _ => ?_⟩
        show s2.records.length = 10
        have : ¬ s2.records.length < 10 := fun hlt => by
          rw [hc.mpr hlt] at hm; cases hm
        omega
      · rw [hq] at h
        simp only at h
        refine ih (hw.congr ?_ ?_ ?_ ?_ ?_) ?_ h
        rotate_right
        · have := hc.mp hm
          unfold RestartState.store
          split <;> exact this
        all_goals unfold RestartState.store; split <;> rfl

/-- **C102, IPOP.** In a release build, run number `k`, from zero, uses `default * factor^k` points
reduced modulo `2^64`, and half the search range as step size. A run is made only if that is at least
two points. There are at most ten runs, and exactly ten if the reason is `MaxRuns`. -/
theorem c102_ipop [FltLaws F] {o : RestartOptions n F} {r : Restarter n F R} {factor : Nat} {l : IPOP}
    {kind : EvalKind} {src : ObjSource n F} {reuse : Bool} {res : RestartResults n F}
    {s : RestartState n F R} (hl : IPOP.new factor = .ok l) (h0 : Restarter.new env o = .ok r)
    (hs : o.strategy = .ipop l) (h : r.runInternalR env kind src reuse = .ok (res, s)) :
    res.runs = s.records.length ∧ res.functionEvals = totalEvals s.records ∧ res.runs ≤ 10 ∧
    (res.reason = .maxRuns → res.runs = 10) ∧
    ∀ (k : Nat) (x : RunRecord n F R), s.records[k]? = some x →
      x.options.populationSize = o.defaultOptions.populationSize * factor ^ k % 2 ^ 64 ∧
      2 ≤ x.options.populationSize ∧ x.options.initialStepSize = o.rangeSize / 2 ∧
      x.RealR env kind := by
  obtain ⟨ho, hst, _⟩ := restarter_new h0
  obtain ⟨rfl, _⟩ := ipop_new hl
  unfold Restarter.runInternalR at h
  simp only [Outcome.bind_eq_ok, Outcome.ok.injEq, Prod.mk.injEq] at h
  obtain ⟨⟨reason, s1⟩, h, rfl, rfl⟩ := h
  have hw : WrapState env kind o factor (r.start env src) := by
    refine ⟨ho, ?_, rfl, rfl, ?_⟩
    · show r.strategy = .ipop ⟨0, factor ^ 0 % 2 ^ 64, factor⟩
      rw [hst, hs, pow_zero, Nat.mod_eq_of_lt (by norm_num)]
    · intro k x hx
      simp [Restarter.start] at hx
  obtain ⟨hw, hle, hm⟩ := wrap_loop _ hw (by simp [Restarter.start]) h
  simp only [RestartState.print_same]
  refine ⟨hw.runs, hw.evals, by rw [hw.runs]; exact hle, fun hr => by rw [hw.runs]; exact hm hr, ?_⟩
  intro k x hx
  obtain ⟨h1, h2, h3⟩ := hw.run k x hx
  refine ⟨h1, ?_, h2, h3⟩
  obtain ⟨w, c0, _, hc, _⟩ := h3
  exact ((c30_valid_iff env w x.obj x.options).mp ⟨c0, hc⟩).2.1

/-! ### Examples and refutations -/

/-- Builds and runs a restarter of a release build and tests the result. -/
def tryRestartR {n : Nat} {F R : Type} [Flt F] (env : Env n F R) (kind : EvalKind)
    (src : ObjSource n F) (reuse : Bool) (o : RestartOptions n F)
    (p : RestartResults n F → RestartState n F R → Bool) : Bool :=
  match Restarter.new env o with
  | .error _ => false
  | .ok r => (r.runInternalR env kind src reuse).check fun x => p x.1 x.2

open Witness in
/-- The hypotheses of `c102_same` are met by BIPOP with the default factor. -/
example : ∃ b, BIPOP.new (F := F64) none none = .ok b ∧ ∃ r,
    Restarter.new (wenv 2) { restartOpts (.bipop b) with maxFunctionEvals := some 10 } = .ok r ∧
    r.runInternal (wenv 2) .seq (.factory fun _ => sphere) false ≠ .panic .overflow := by
  refine ⟨_, rfl, ?_⟩
  obtain ⟨r, res, s, h0, h, _⟩ := of_tryRestart (env := wenv 2) (kind := .seq)
    (src := .factory fun _ => sphere) (reuse := false)
    (o := { restartOpts (.bipop ⟨0, 0, 1, 2, 0, 1, Flt.ofRat (2 / 10), 0⟩) with
      maxFunctionEvals := some 10 }) (p := fun _ _ => true) (by decide +kernel)
  exact ⟨r, h0, by rw [h]; simp⟩

open Witness in
/-- **C102, refutation.** `IPOP::new` accepts the increase factor `2^63 + 1`. In a build with
overflow checks the second run panics; in a release build there are ten runs, all with four
points: the population never increases. -/
theorem c102_silent : ∃ l, IPOP.new (2 ^ 63 + 1) = .ok l ∧
    ∃ r, Restarter.new (wenv 2) (restartOpts (.ipop l)) = .ok r ∧
      r.runInternal (wenv 2) .seq (.factory fun _ => sphere) false = .panic .overflow ∧
      ∃ res s, r.runInternalR (wenv 2) .seq (.factory fun _ => sphere) false = .ok (res, s) ∧
        res.reason = .maxRuns ∧ res.runs = 10 ∧
        s.records.map (fun x => x.options.populationSize) = List.replicate 10 4 := by
  refine ⟨⟨0, 1, 2 ^ 63 + 1⟩, rfl, ?_⟩
  obtain ⟨r, h0, h⟩ := of_tryRestartPanic (env := wenv 2) (kind := .seq)
    (o := restartOpts (.ipop ⟨0, 1, 2 ^ 63 + 1⟩)) (q := .overflow)
    (src := .factory fun _ => sphere) (reuse := false) (by decide +kernel)
  have hx : tryRestartR (wenv 2) .seq (.factory fun _ => sphere) false
      (restartOpts (.ipop ⟨0, 1, 2 ^ 63 + 1⟩)) (fun res s => decide (res.reason = .maxRuns ∧
        res.runs = 10 ∧
        s.records.map (fun x => x.options.populationSize) = List.replicate 10 4)) = true := by
    decide +kernel
  unfold tryRestartR at hx
  rw [h0] at hx
  obtain ⟨⟨res, s⟩, h1, h2⟩ := Outcome.of_check hx
  exact ⟨r, h0, h, res, s, h1, of_decide_eq_true h2⟩

end Cmaes
