import Verif.Props.RestartRelease

/-!
# C102: BIPOP in release builds
-/

set_option linter.unusedSectionVars false

namespace Cmaes
variable {n : Nat} {F R : Type} [Flt F] {env : Env n F R}

/-- As `BipopRun`, with population multipliers reduced modulo `2^64`. -/
def BipopRunR (env : Env n F R) (size lrFactor : F) (default : Nat) (limit : Option Nat)
    (factor : Nat) (pre : List (Regime × RunRecord n F R)) (g : Regime) (x : Options n F) : Prop :=
  match g with
  | .ipop => x.populationSize = default * factor ^ runsOf .ipop pre % 2 ^ 64 ∧
      x.initialStepSize = size / 5 ∧ x.maxFunctionEvals = limit
  | .small => ∃ last u1 u2, lastIpop pre = some last ∧ env.CanDraw u1 ∧ env.CanDraw u2 ∧
      x.initialStepSize = size * lrFactor * Flt.powf 10 (-2 * u1) ∧
      x.populationSize = Flt.toUsize (Flt.floor (Flt.ofNat default * Flt.fmax
        (Flt.powf (Flt.ofNat (factor ^ (runsOf .ipop pre - 1) % 2 ^ 64) / 2) (Flt.powi u2 2)) 1)) ∧
      x.maxFunctionEvals = limit.map fun m => min m (last.evals / 2)

/-- As `BipopRuns`, for release builds; the runs took place, with at least two points each. -/
def BipopRunsR (env : Env n F R) (kind : EvalKind) (o : RestartOptions n F) (lrFactor : F)
    (factor : Nat) (ls : List (Regime × RunRecord n F R)) : Prop :=
  ∀ pre g x post, ls = pre ++ (g, x) :: post →
    (g = .small ↔ pre ≠ [] ∧ spent .small pre < spent .ipop pre) ∧
    BipopRunR env o.rangeSize lrFactor o.defaultOptions.populationSize o.maxFunctionEvalsPerRun
      factor pre g x.options ∧
    2 ≤ x.options.populationSize ∧ x.RealR env kind

/-- The strategy's state agrees with the labelled runs. -/
structure BipopStateR (b : BIPOP F) (lrf : F) (k : Nat)
    (ls : List (Regime × RunRecord n F R)) : Prop where
  runs : b.ipopRuns = runsOf .ipop ls
  ipopEvals : b.ipopFunctionEvals = spent .ipop ls
  lrEvals : b.lrFunctionEvals = spent .small ls
  factor : b.ipopIncreaseFactor = k
  mult : b.ipopCurrentMultiplier = k ^ runsOf .ipop ls % 2 ^ 64
  lrFactor : b.lrInitialStepSizeFactor = lrf
  first : ls ≠ [] → runsOf .ipop ls ≠ 0
  last : runsOf .ipop ls ≠ 0 → ∃ x, lastIpop ls = some x ∧ b.lastIpopFunctionEvalsUsed = x.evals ∧
    b.lastIpopMultiplier = k ^ (runsOf .ipop ls - 1) % 2 ^ 64

theorem BipopStateR.useLr {b : BIPOP F} {lrFactor : F} {factor : Nat}
    {ls : List (Regime × RunRecord n F R)} (i : BipopStateR b lrFactor factor ls) :
    b.useLr = true ↔ ls ≠ [] ∧ spent .small ls < spent .ipop ls := by
  unfold BIPOP.useLr
  rw [Bool.and_eq_true, decide_eq_true_iff, bne_iff_ne, i.runs, i.lrEvals, i.ipopEvals]
  refine and_congr_left fun _ => ⟨?_, i.first⟩
  rintro h rfl
  exact h rfl

/-- One run of BIPOP keeps the agreement. -/
theorem bipop_stepR [FltLaws F] {b : BIPOP F} {lrFactor : F} {factor : Nat} {kind : EvalKind}
    {o : RestartOptions n F}
    {ls : List (Regime × RunRecord n F R)} (i : BipopStateR b lrFactor factor ls)
    (hls : BipopRunsR env kind o lrFactor factor ls) {mean : Vec n F} {seed : Nat} {rng rng' : R}
    {rec : RunRecord n F R} {st : Strategy F} {control : RestartControl}
    (h2 : 2 ≤ rec.options.populationSize) (hreal : rec.RealR env kind)
    (hc : (Strategy.bipop b).configureR env.restartRng (o.runOptions mean seed) o.rangeSize rng =
      (rec.options, rng'))
    (hf : (Strategy.bipop b).finishR rec.evals = (st, control)) :
    ∃ b' g, st = .bipop b' ∧ BipopStateR b' lrFactor factor (ls ++ [(g, rec)]) ∧
      BipopRunsR env kind o lrFactor factor (ls ++ [(g, rec)]) ∧
      (g = .ipop → (control = .maxRunsReached ↔ 10 ≤ runsOf .ipop (ls ++ [(g, rec)]))) ∧
      (g = .small → control = .continue) := by
  have hap : ∀ g, ((g = .small ↔ ls ≠ [] ∧ spent .small ls < spent .ipop ls) ∧
      BipopRunR env o.rangeSize lrFactor o.defaultOptions.populationSize o.maxFunctionEvalsPerRun
        factor ls g rec.options) → BipopRunsR env kind o lrFactor factor (ls ++ [(g, rec)]) := by
    intro g hg pre g' x post e
    rcases snoc_split e with ⟨_, rfl, e2⟩ | ⟨post', _, e2⟩
    · injection e2 with e2 e3
      subst e2 e3
      exact ⟨hg.1, hg.2, h2, hreal⟩
    · exact hls pre g' x post' e2
  have hu := i.useLr
  unfold Strategy.configureR at hc
  unfold Strategy.finishR at hf
  simp only at hc hf
  by_cases hlr : b.useLr = true
  · have hl := hu.mp hlr
    rw [if_pos hlr] at hc hf
    simp only [Prod.mk.injEq] at hc hf
    obtain ⟨x, hx1, hx2, hx3⟩ := i.last (i.first hl.1)
    refine ⟨_, .small, hf.1.symm, ?_, hap _ ⟨by simpa using hl, ?_⟩, by simp, fun _ => hf.2.symm⟩
    · refine ⟨?_, ?_, ?_, i.factor, ?_, i.lrFactor, fun _ => ?_, fun _ => ?_⟩
      · rw [runsOf_snoc_other (by simp)]; exact i.runs
      · rw [spent_snoc_other (by simp)]; exact i.ipopEvals
      · rw [spent_snoc_same]
        show _ + _ = _
        rw [i.lrEvals]
      · rw [runsOf_snoc_other (by simp)]; exact i.mult
      · rw [runsOf_snoc_other (by simp)]; exact i.first hl.1
      · rw [runsOf_snoc_other (by simp), lastIpop_snoc_small]
        exact ⟨x, hx1, hx2, hx3⟩
    · refine ⟨x, (env.restartRng.unit rng).1,
        (env.restartRng.unit (env.restartRng.unit rng).2).1, hx1, ⟨_, rfl⟩, ⟨_, rfl⟩, ?_, ?_, ?_⟩
      · rw [← hc.1]
        show _ * b.lrInitialStepSizeFactor * _ = _
        rw [i.lrFactor]
      · rw [← hc.1, ← hx3]
        rfl
      · rw [← hc.1, ← hx2]
        rfl
  · rw [if_neg hlr] at hc hf
    simp only [Prod.mk.injEq] at hc hf
    obtain ⟨hc, _⟩ := hc
    obtain ⟨hf, hf2⟩ := hf
    have hnl : ¬ (ls ≠ [] ∧ spent .small ls < spent .ipop ls) := fun h => hlr (hu.mpr h)
    refine ⟨_, .ipop, hf.symm, ?_, hap _ ⟨by simpa using hnl, ?_⟩, fun _ => ?_, by simp⟩
    · refine ⟨?_, ?_, ?_, i.factor, ?_, i.lrFactor, fun _ => ?_, fun _ => ?_⟩
      · rw [runsOf_snoc_same, ← i.runs]
      · rw [spent_snoc_same, ← i.ipopEvals]
      · rw [spent_snoc_other (by simp)]; exact i.lrEvals
      · rw [runsOf_snoc_same, pow_succ]
        show wrapMul _ _ = _
        rw [wrapMul, i.mult, i.factor, Nat.mod_mul_mod]
      · rw [runsOf_snoc_same]; omega
      · rw [runsOf_snoc_same, lastIpop_snoc_same, Nat.add_sub_cancel, ← i.mult]
        exact ⟨rec, rfl, rfl, rfl⟩
    · refine ⟨?_, ?_, ?_⟩
      · rw [← hc]
        show wrapMul _ _ = _
        rw [wrapMul, i.mult, Nat.mul_mod_mod]
        rfl
      · rw [← hc]; rfl
      · rw [← hc]; rfl
    · rw [runsOf_snoc_same, ← i.runs, ← hf2]
      by_cases hle : bipopMaxIpopRuns ≤ b.ipopRuns + 1
      · simp only [hle, ↓reduceIte, true_iff]
        exact hle
      · simp only [hle, ↓reduceIte, reduceCtorEq, false_iff]
        exact hle

/-- The state of a BIPOP restarter of a release build after some runs. -/
structure WrapBipop (env : Env n F R) (kind : EvalKind) (o : RestartOptions n F) (lrf : F)
    (factor : Nat) (ls : List (Regime × RunRecord n F R)) (s : RestartState n F R) : Prop where
  options : s.restarter.options = o
  strategy : ∃ b, s.restarter.strategy = .bipop b ∧ BipopStateR b lrf factor ls
  records : s.records = ls.map Prod.snd
  runs : s.runs = s.records.length
  evals : s.functionEvals = totalEvals s.records
  run : BipopRunsR env kind o lrf factor ls

theorem WrapBipop.congr {kind : EvalKind} {o : RestartOptions n F} {factor : Nat} {lrf : F}
    {ls : List (Regime × RunRecord n F R)}
    {s s' : RestartState n F R} (h : WrapBipop env kind o lrf factor ls s)
    (h1 : s'.restarter.options = s.restarter.options)
    (h2 : s'.restarter.strategy = s.restarter.strategy) (h3 : s'.runs = s.runs)
    (h4 : s'.records = s.records) (h5 : s'.functionEvals = s.functionEvals) :
    WrapBipop env kind o lrf factor ls s' :=
  ⟨h1.trans h.options, by rw [h2]; exact h.strategy, h4.trans h.records, by rw [h3, h4, h.runs],
    by rw [h5, h4, h.evals], h.run⟩

theorem wrapBipop_oneRun [FltLaws F] {o : RestartOptions n F} {factor : Nat} {lrf : F}
    {kind : EvalKind}
    {ls : List (Regime × RunRecord n F R)}
    {s s' : RestartState n F R} {x : RunRecord n F R} {control : RestartControl}
    (hs : WrapBipop env kind o lrf factor ls s) (hlt : runsOf .ipop ls < 10)
    (h : s.oneRunR env kind = .ok (s', x, control)) :
    ∃ ls', WrapBipop env kind o lrf factor ls' s' ∧ runsOf .ipop ls' ≤ 10 ∧
      (control = .continue → runsOf .ipop ls' < 10) ∧
      (control = .maxRunsReached → runsOf .ipop ls' = 10) := by
  unfold RestartState.oneRunR at h
  simp only [Outcome.bind_eq_ok] at h
  obtain ⟨⟨mean, rng1⟩, hm, ⟨obj, s3⟩, ho, h⟩ := h
  obtain ⟨e1, e2, e3, e4, e5, e6⟩ := takeObjective_same ho
  obtain ⟨b, hb, i⟩ := hs.strategy
  simp only [e1, hs.options, hb] at h
  generalize hcf : (Strategy.bipop b).configureR env.restartRng
    (o.runOptions mean (env.restartRng.u64 rng1).1) (Flt.abs (o.searchEnd - o.searchStart))
    (env.restartRng.u64 rng1).2 = y at h
  obtain ⟨opts, rng2⟩ := y
  simp only at h
  split at h
  · simp at h
  rename_i c hn
  simp only [Outcome.bind_eq_ok] at h
  obtain ⟨⟨c', d⟩, hr, h⟩ := h
  simp only at h
  generalize hfin : (Strategy.bipop b).finishR c'.functionEvals = z at h
  obtain ⟨st, ctl⟩ := z
  simp only [Outcome.ok.injEq, Prod.mk.injEq] at h
  obtain ⟨rfl, rfl, rfl⟩ := h
  have hps := fun (s : RestartState n F R) (e : PrintEvent n F) => s.print_same e
  have h2 : 2 ≤ opts.populationSize := ((c30_valid_iff env _ obj opts).mp ⟨c, hn⟩).2.1
  have hreal : RunRecord.RealR env kind { obj, options := opts, final := c', data := d } := by
    refine ⟨_, c, _, hn, ?_, hr⟩
    split
    · exact .inr ⟨_, rfl⟩
    · exact .inl rfl
  obtain ⟨b', g, f1, f2, f3, f4, f5⟩ := bipop_stepR (env := env) (kind := kind) (o := o) i hs.run
    (rec := { obj, options := opts, final := c', data := d }) h2 hreal hcf hfin
  subst f1
  refine ⟨ls ++ [(g, { obj, options := opts, final := c', data := d })], ⟨?_, ?_, ?_, ?_, ?_, f3⟩,
    ?_, ?_, ?_⟩
  · simp only [hps]
  · simp only [hps]
    exact ⟨b', rfl, f2⟩
  · simp only [hps, e6, hs.records, List.map_append, List.map_cons, List.map_nil]
  · simp only [hps, e4, e6, hs.runs, List.length_append, List.length_cons, List.length_nil]
  · simp only [hps, e3, e6, hs.evals]
    simp [totalEvals, RunRecord.evals]
  · cases g with
    | ipop => rw [runsOf_snoc_same]; omega
    | small => rw [runsOf_snoc_other (by simp)]; exact hlt.le
  · rintro rfl
    cases g with
    | ipop =>
      have := f4 rfl
      simp only [reduceCtorEq, false_iff, not_le] at this
      exact this
    | small => rw [runsOf_snoc_other (by simp)]; exact hlt
  · rintro rfl
    cases g with
    | ipop =>
      have := (f4 rfl).mp rfl
      rw [runsOf_snoc_same] at this ⊢
      omega
    | small => have := f5 rfl; cases this

theorem wrapBipop_loop [FltLaws F] {o : RestartOptions n F} {factor : Nat} {lrf : F}
    {kind : EvalKind} {reuse : Bool}
    (fuel : Nat) {s s' : RestartState n F R} {r : RestartTerminationReason}
    {ls : List (Regime × RunRecord n F R)}
    (hs : WrapBipop env kind o lrf factor ls s) (hl : runsOf .ipop ls < 10)
    (h : s.loopR env kind reuse fuel = .ok (r, s')) :
    ∃ ls', WrapBipop env kind o lrf factor ls' s' ∧ runsOf .ipop ls' ≤ 10 ∧
      (r = .maxRuns → runsOf .ipop ls' = 10) := by
  induction fuel generalizing s ls with
  | zero => cases h
  | succ fuel ih =>
    unfold RestartState.loopR at h
    have hz : s.restarter.strategy.hasZeroMaxRuns = false := by
      obtain ⟨b, hb, _⟩ := hs.strategy
      rw [hb]; rfl
    rcases precheck_cases (env := env) s with ⟨h0, _⟩ | ⟨_, _, hp⟩ | ⟨_, w, ⟨_, _, _, hp⟩ | ⟨_, hp⟩⟩
    · rw [hz] at h0; cases h0
    · rw [hp] at h
      simp only [Outcome.ok.injEq, Prod.mk.injEq] at h
      obtain ⟨rfl, rfl⟩ := h
      exact ⟨ls, hs, hl.le, by simp⟩
    · rw [hp] at h
      simp only [Outcome.ok.injEq, Prod.mk.injEq] at h
      obtain ⟨rfl, rfl⟩ := h
      exact ⟨ls, hs.congr rfl rfl rfl rfl rfl, hl.le, by simp⟩
    · rw [hp] at h
      simp only [Outcome.bind_eq_ok] at h
      obtain ⟨⟨s2, x, control⟩, h1, h⟩ := h
      obtain ⟨ls2, hw, hle, hc, hm10⟩ := wrapBipop_oneRun (hs.congr (s' := { s with world := w })
        rfl rfl rfl rfl rfl) hl h1
      simp only at h
      rcases postcheck_cases s2 x control with ⟨_, hq⟩ | ⟨_, best, _, ⟨_, hq⟩ | ⟨_, hm, hq⟩ |
        ⟨_, hm, hq⟩⟩
      · rw [hq] at h
        simp only [Outcome.ok.injEq, Prod.mk.injEq] at h
        obtain ⟨rfl, rfl⟩ := h
        exact ⟨ls2, hw, hle, by simp⟩
      · rw [hq] at h
        simp only [Outcome.ok.injEq, Prod.mk.injEq] at h
        obtain ⟨rfl, rfl⟩ := h
        exact ⟨ls2, hw.congr rfl rfl rfl rfl rfl, hle, by simp⟩
      · rw [hq] at h
        simp only [Outcome.ok.injEq, Prod.mk.injEq] at h
        obtain ⟨rfl, rfl⟩ := h
        exact ⟨ls2, hw.congr rfl rfl rfl rfl rfl, hle, fun _ => hm10 hm⟩
      · rw [hq] at h
        simp only at h
        refine ih (hw.congr ?_ ?_ ?_ ?_ ?_) (hc hm) h
        all_goals unfold RestartState.store; split <;> rfl

/-- **C102, BIPOP.** In a release build the runs can be labelled so that: a run is local if and only
if it is not the first and the local runs so far used fewer evaluations than the others; every run
has the configuration of its kind with population multipliers reduced modulo `2^64`, and at least
two points; at most ten runs are not local, and exactly ten if the reason is `MaxRuns`. -/
theorem c102_bipop [FltLaws F] {o : RestartOptions n F} {r : Restarter n F R} {lr : Option F}
    {factor : Option Nat} {b : BIPOP F}
    {kind : EvalKind} {src : ObjSource n F} {reuse : Bool} {res : RestartResults n F}
    {s : RestartState n F R} (hb : BIPOP.new lr factor = .ok b) (h0 : Restarter.new env o = .ok r)
    (hs : o.strategy = .bipop b) (h : r.runInternalR env kind src reuse = .ok (res, s)) :
    res.runs = s.records.length ∧ res.functionEvals = totalEvals s.records ∧
    ∃ ls : List (Regime × RunRecord n F R), ls.map Prod.snd = s.records ∧
      BipopRunsR env kind o (lr.getD (Flt.ofRat (2 / 10))) (factor.getD 2) ls ∧
      runsOf .ipop ls ≤ 10 ∧ (res.reason = .maxRuns → runsOf .ipop ls = 10) := by
  obtain ⟨ho, hst, _⟩ := restarter_new h0
  have hb0 := (bipop_new (n := n) (R := R) hb).1
  unfold Restarter.runInternalR at h
  simp only [Outcome.bind_eq_ok, Outcome.ok.injEq, Prod.mk.injEq] at h
  obtain ⟨⟨reason, s1⟩, h, rfl, rfl⟩ := h
  have hw : WrapBipop env kind o (lr.getD (Flt.ofRat (2 / 10))) (factor.getD 2) []
      (r.start env src) := by
    refine ⟨ho, ⟨b, ?_, ?_⟩, rfl, rfl, rfl, by rintro ⟨⟩ _ _ _ h <;> simp at h⟩
    · show r.strategy = _
      rw [hst, hs]
    · have hm := hb0.mult
      refine ⟨hb0.runs, hb0.ipopEvals, hb0.lrEvals, hb0.factor, ?_, hb0.lrFactor, hb0.first,
        by simp [runsOf]⟩
      rw [hm]
      simp [runsOf]
  obtain ⟨ls, hw, hle, hm⟩ := wrapBipop_loop _ hw (by simp [runsOf]) h
  simp only [RestartState.print_same]
  exact ⟨hw.runs, hw.evals, ls, hw.records.symm, hw.run, hle, hm⟩

open Witness in
/-- **C102, refutation.** `BIPOP::new` accepts the increase factor `2^63 + 1`. In a build with
overflow checks the third run, the second one that is not local, panics; in a release build it has
four points, as many as the first: the population does not increase. The release execution meets the hypotheses of
`c102_bipop`. -/
theorem c102_bipop_silent : ∃ b, BIPOP.new (F := F64) none (some (2 ^ 63 + 1)) = .ok b ∧
    ∃ r, Restarter.new (wenv 2) { restartOpts (.bipop b) with maxFunctionEvals := some 18 } = .ok r ∧
      r.runInternal (wenv 2) .seq (.factory fun _ => sphere) false = .panic .overflow ∧
      ∃ res s, r.runInternalR (wenv 2) .seq (.factory fun _ => sphere) false = .ok (res, s) ∧
        res.reason = .maxFunctionEvals ∧ res.runs = 3 ∧
        s.records.map (fun x => x.options.populationSize) = [4, 4, 4] := by
  refine ⟨⟨0, 0, 1, 2 ^ 63 + 1, 0, 1, Flt.ofRat (2 / 10), 0⟩, rfl, ?_⟩
  obtain ⟨r, h0, h⟩ := of_tryRestartPanic (env := wenv 2) (kind := .seq)
    (o := { restartOpts (.bipop ⟨0, 0, 1, 2 ^ 63 + 1, 0, 1, Flt.ofRat (2 / 10), 0⟩) with
      maxFunctionEvals := some 18 }) (q := .overflow)
    (src := .factory fun _ => sphere) (reuse := false) (by decide +kernel)
  have hx : tryRestartR (wenv 2) .seq (.factory fun _ => sphere) false
      { restartOpts (.bipop ⟨0, 0, 1, 2 ^ 63 + 1, 0, 1, Flt.ofRat (2 / 10), 0⟩) with
        maxFunctionEvals := some 18 }
      (fun res s => decide (res.reason = .maxFunctionEvals ∧ res.runs = 3 ∧
        s.records.map (fun x => x.options.populationSize) = [4, 4, 4])) = true := by
    decide +kernel
  unfold tryRestartR at hx
  rw [h0] at hx
  obtain ⟨⟨res, s⟩, h1, h2⟩ := Outcome.of_check hx
  exact ⟨r, h0, h, res, s, h1, of_decide_eq_true h2⟩

end Cmaes
