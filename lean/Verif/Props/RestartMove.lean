import Verif.Spec.RestartMove
import Verif.Props.MoveOutcome
import Verif.Props.Reproduce

/-!
# C103: restarts in a moved and scaled search range
-/

set_option linter.unusedSectionVars false

namespace Cmaes
variable {n : Nat} {R : Type}

section
variable {env : Env n XR R} {o o' : RestartOptions n XR} {α τ lo hi : ℝ}

theorem MovedRestart.start (h : MovedRestart α τ o o') (hlo : o.searchStart = .fin lo) :
    o'.searchStart = .fin (α * lo + τ) := by
  rw [h.rest]
  show .fin α * o.searchStart + .fin τ = _
  rw [hlo, XR.mul_fin, XR.add_fin]

theorem MovedRestart.stop (h : MovedRestart α τ o o') (hhi : o.searchEnd = .fin hi) :
    o'.searchEnd = .fin (α * hi + τ) := by
  rw [h.rest]
  show .fin α * o.searchEnd + .fin τ = _
  rw [hhi, XR.mul_fin, XR.add_fin]

theorem range_scale (hα : 0 < α) (lo hi τ : ℝ) :
    (Flt.abs (.fin (α * hi + τ) - .fin (α * lo + τ)) : XR) =
      .fin α * Flt.abs (.fin hi - .fin lo) := by
  rw [XR.sub_fin, XR.sub_fin, XR.abs_fin, XR.abs_fin, XR.mul_fin,
    show α * hi + τ - (α * lo + τ) = α * (hi - lo) by ring, abs_mul, abs_of_pos hα]

theorem genRange_move (hα : 0 < α) (hd : MovedDraws env α τ lo hi) (r : R) :
    genRange env.restartRng (.fin (α * lo + τ)) (.fin (α * hi + τ)) r =
      (fun x : XR × R => (.fin α * x.1 + .fin τ, x.2)) <$>
        genRange env.restartRng (.fin lo) (.fin hi) r := by
  have hne : (1 - ((1 / 2 ^ 52 : ℚ) : ℝ)) ≠ 0 := by norm_num
  have hle : (α * lo + τ ≤ α * hi + τ) = (lo ≤ hi) := by
    rw [add_le_add_iff_right, mul_le_mul_iff_right₀ hα]
  unfold genRange
  simp only [XR.sub_fin, XR.one_eq, XR.ofRat_eq, XR.div_fin hne, XR.isInf_fin, XR.isNaN_fin,
    XR.le_fin, hle]
  by_cases h : lo ≤ hi
  · simp only [h, decide_true, Bool.not_false, Bool.and_self, if_true]
    rw [hd]
    rfl
  · simp only [h, decide_false, Bool.false_and, Bool.false_eq_true, if_false]
    rfl

theorem genRanges_move (hα : 0 < α) (hd : MovedDraws env α τ lo hi) (k : Nat) (r : R) :
    genRanges env.restartRng (.fin (α * lo + τ)) (.fin (α * hi + τ)) k r =
      (fun x : List XR × R => (x.1.map fun v => .fin α * v + .fin τ, x.2)) <$>
        genRanges env.restartRng (.fin lo) (.fin hi) k r := by
  induction k generalizing r with
  | zero => rfl
  | succ k ih =>
    simp only [genRanges, genRange_move hα hd]
    cases genRange env.restartRng (.fin lo) (.fin hi) r with
    | panic p => rfl
    | diverge => rfl
    | ok x =>
      obtain ⟨x, r1⟩ := x
      simp only [Outcome.map_eq_bind, Outcome.ok_bind, ih]
      cases genRanges env.restartRng (.fin lo) (.fin hi) k r1 with
      | panic p => rfl
      | diverge => rfl
      | ok y => rfl

theorem genRanges_length {F : Type} [Flt F] {rng : RngOps R F} {a b : F} {k : Nat} {r : R}
    {x : List F × R} (h : genRanges rng a b k r = .ok x) : x.1.length = k := by
  induction k generalizing r x with
  | zero =>
    simp only [genRanges, Outcome.ok.injEq] at h
    rw [← h]; rfl
  | succ k ih =>
    simp only [genRanges, Outcome.bind_eq_ok] at h
    obtain ⟨_, _, ⟨xs, r2⟩, h2, h3⟩ := h
    simp only [Outcome.ok.injEq] at h3
    rw [← h3]
    simp only [List.length_cons]
    rw [← ih h2]

theorem initialMean_move (hα : 0 < α) (hd : MovedDraws env α τ lo hi) (r : R) :
    (generateInitialMean env.restartRng (.fin (α * lo + τ)) (.fin (α * hi + τ)) r :
        Outcome (Vec n XR × R)) =
      (fun x => (affine α (fun _ => τ) x.1, x.2)) <$>
        generateInitialMean env.restartRng (.fin lo) (.fin hi) r := by
  simp only [generateInitialMean, genRanges_move hα hd]
  cases hg : genRanges env.restartRng (.fin lo) (.fin hi) n r with
  | panic p => rfl
  | diverge => rfl
  | ok x =>
    obtain ⟨xs, r1⟩ := x
    have hl : xs.length = n := genRanges_length hg
    simp only [Outcome.map_eq_bind, Outcome.ok_bind, Outcome.ok.injEq, Prod.mk.injEq, and_true]
    funext i
    have hi' : (i : Nat) < xs.length := by rw [hl]; exact i.2
    simp only [affine, List.getD_eq_getElem?_getD, List.getElem?_map,
      List.getElem?_eq_getElem hi', Option.map_some, Option.getD_some]

/-- The options of a run before the strategy changes them. -/
theorem MovedRestart.runOptions (h : MovedRestart α τ o o') (mean : Vec n XR) (seed : Nat)
    (s : XR) :
    MovedOptions α (fun _ => τ) { o.runOptions mean seed with initialStepSize := s }
      { o'.runOptions (affine α (fun _ => τ) mean) seed with initialStepSize := .fin α * s } := by
  refine ⟨?_, ?_⟩
  · have hr := h.rest
    rw [hr]
    rfl
  · exact h.constraints

theorem MovedOptions.population {α : ℝ} {τ : Fin n → ℝ} {a a' : Options n XR}
    (h : MovedOptions α τ a a') (p : Nat) (m : Option Nat) :
    MovedOptions α τ { a with populationSize := p, maxFunctionEvals := m }
      { a' with populationSize := p, maxFunctionEvals := m } := by
  refine ⟨?_, h.constraints⟩
  have hr := h.rest
  rw [hr]

theorem configure_move (hα : 0 < α) (h : MovedRestart α τ o o') (hlo : o.searchStart = .fin lo)
    (hhi : o.searchEnd = .fin hi) (s : Strategy XR) (mean : Vec n XR) (seed : Nat) (r : R) :
    Outcome.Rel (fun x y => MovedOptions α (fun _ => τ) x.1 y.1 ∧ y.2 = x.2)
      (s.configure env.restartRng (o.runOptions mean seed)
        (Flt.abs (o.searchEnd - o.searchStart)) r)
      (s.configure env.restartRng (o'.runOptions (affine α (fun _ => τ) mean) seed)
        (Flt.abs (o'.searchEnd - o'.searchStart)) r) := by
  rw [h.start hlo, h.stop hhi, hlo, hhi, range_scale hα]
  have hp : (o'.runOptions (affine α (fun _ => τ) mean) seed).populationSize =
      (o.runOptions mean seed).populationSize := by
    rw [h.rest]; rfl
  have hm : (o'.runOptions (affine α (fun _ => τ) mean) seed).maxFunctionEvals =
      (o.runOptions mean seed).maxFunctionEvals := by
    rw [h.rest]; rfl
  have hfin : ∃ v, (Flt.abs (.fin hi - .fin lo) : XR) = .fin v := ⟨_, by
    rw [XR.sub_fin, XR.abs_fin]⟩
  obtain ⟨v, hv⟩ := hfin
  unfold Strategy.configure
  cases s with
  | «local» s =>
    refine .ok ⟨?_, rfl⟩
    have := h.runOptions mean seed (s.initialStepSize (Flt.abs (.fin hi - .fin lo)))
    have e : s.initialStepSize (.fin α * Flt.abs (.fin hi - .fin lo)) =
        .fin α * s.initialStepSize (Flt.abs (.fin hi - .fin lo)) := by
      unfold Local.initialStepSize
      rw [XR.scale_assoc hα, XR.scale_assoc hα]
    rw [← e] at this
    exact this
  | ipop s =>
    simp only [hp]
    refine Outcome.Rel.bind (Outcome.Rel.of_eq rfl) ?_
    rintro p _ rfl
    refine .ok ⟨?_, rfl⟩
    have := (h.runOptions mean seed (ipopInitialStepSize (Flt.abs (.fin hi - .fin lo)))).population
      p (o.runOptions mean seed).maxFunctionEvals
    have e : ipopInitialStepSize (.fin α * Flt.abs (.fin hi - .fin lo) : XR) =
        .fin α * ipopInitialStepSize (Flt.abs (.fin hi - .fin lo)) := by
      unfold ipopInitialStepSize
      rw [hv, XR.lit_eq, XR.mul_fin, XR.div_fin (by norm_num), XR.div_fin (by norm_num), XR.mul_fin,
        mul_div_assoc]
    rw [← e] at this
    conv at this => arg 4; rw [← hm]
    exact this
  | bipop s =>
    simp only [hp]
    by_cases hu : s.useLr = true
    · rw [if_pos hu, if_pos hu]
      refine .ok ⟨?_, rfl⟩
      have := (h.runOptions mean seed (s.initialStepSizeLr (Flt.abs (.fin hi - .fin lo))
        (env.restartRng.unit r).1)).population
        (s.populationSizeLr (o.runOptions mean seed).populationSize
          (env.restartRng.unit (env.restartRng.unit r).2).1)
        ((o.runOptions mean seed).maxFunctionEvals.map fun m =>
          min m (s.lastIpopFunctionEvalsUsed / 2))
      have e : s.initialStepSizeLr (.fin α * Flt.abs (.fin hi - .fin lo))
            (env.restartRng.unit r).1 =
          .fin α * s.initialStepSizeLr (Flt.abs (.fin hi - .fin lo))
            (env.restartRng.unit r).1 := by
        unfold BIPOP.initialStepSizeLr
        rw [XR.scale_assoc hα, XR.scale_assoc hα]
      rw [← e] at this
      conv at this => arg 4; rw [← hm]
      exact this
    · rw [if_neg hu, if_neg hu]
      refine Outcome.Rel.bind (Outcome.Rel.of_eq rfl) ?_
      rintro p _ rfl
      refine .ok ⟨?_, rfl⟩
      have := (h.runOptions mean seed
        (bipopInitialStepSizeIpop (Flt.abs (.fin hi - .fin lo)))).population
        p (o.runOptions mean seed).maxFunctionEvals
      have e : bipopInitialStepSizeIpop (.fin α * Flt.abs (.fin hi - .fin lo) : XR) =
          .fin α * bipopInitialStepSizeIpop (Flt.abs (.fin hi - .fin lo)) := by
        unfold bipopInitialStepSizeIpop
        rw [hv, XR.lit_eq, XR.mul_fin, XR.div_fin (by norm_num), XR.div_fin (by norm_num),
          XR.mul_fin, mul_div_assoc]
      rw [← e] at this
      conv at this => arg 4; rw [← hm]
      exact this

/-- The comparison of a restarter with one in a moved search range. -/
noncomputable def moveSim (env : Env n XR R) (kind : EvalKind) (hα : 0 < α)
    (h : MovedRestart α τ o o') (hlo : o.searchStart = .fin lo) (hhi : o.searchEnd = .fin hi)
    (hd : MovedDraws env α τ lo hi) : RestartSim env env kind kind o o' where
  T := .same
  WRel w w' := w'.steps = w.steps ∧ w'.clockReads = w.clockReads
  ORel obj obj' := obj.MovedBy (affine α fun _ => τ) obj'
  LRel l l' := l' = moveCalls (affine α fun _ => τ) l
  φ := id
  ψ := Individual.moved (affine α fun _ => τ)
  μ := affine α fun _ => τ
  OptRel := MovedOptions α fun _ => τ
  RunRel c d c' d' := FullMove (similarity hα fun _ => τ) c c' ∧
    d' = d.moved (affine α fun _ => τ)
  restartRng := rfl
  restartFuel := rfl
  ψ_value _ := rfl
  mean r := by
    rw [h.start hlo, h.stop hhi, hlo, hhi, initialMean_move hα hd, Outcome.map_eq_bind]
    cases (generateInitialMean env.restartRng (.fin lo) (.fin hi) r : Outcome (Vec n XR × R)) with
    | ok x => exact .ok rfl
    | panic p => exact .panic p
    | diverge => exact .diverge
  maxFunctionEvals := by rw [h.rest]
  maxTime := by rw [h.rest]
  configure s mean seed r := configure_move hα h hlo hhi s mean seed r
  now := by
    rintro w w' ⟨h1, h2⟩
    refine ⟨⟨h1, ?_⟩, .inr ?_⟩ <;> simp [World.now, h2]
  print_run := by
    intro w w' k b l e h
    split <;> split <;> exact h
  print_results := by
    intro w w' e r b h
    split <;> split <;> exact h
  run := by
    rintro w w' obj obj' a a' k hw ⟨h1, h2⟩ ha
    have he : o'.enablePrinting = o.enablePrinting := by rw [h.rest]
    simp only [buildRun, CMAES.new, c40_builds hα ha, he]
    cases hvo : CMAES.validate a with
    | some e => exact Relator.same.panic _
    | none =>
      have hc : FullMove (similarity hα fun _ => τ) (CMAES.create env w obj a)
          (CMAES.create env w' obj' a') := create_fullMove hα ha h1 h2 hw
      simp only
      cases o.enablePrinting with
      | false => exact FullMove.run hc
      | true => exact FullMove.run (hc.print _ _)
  run_world h := ⟨h.1.steps, h.1.clockReads⟩
  run_obj h := ⟨h.1.sampler.obj.f, h.1.sampler.obj.log⟩
  run_log h := h.1.sampler.obj.log
  run_evals h := h.1.sampler.functionEvals
  run_best h := by
    show CMAES.overallBestIndividual _ = _
    unfold CMAES.overallBestIndividual
    rw [h.1.history]
    rfl
  run_reasons h := by rw [h.2]; rfl
  better a b := by
    rw [h.rest]
    rfl

/-- `build` accepts the moved restart options exactly if it accepts the original ones. -/
theorem c103_builds (hα : 0 < α) (h : MovedRestart α τ o o') (hlo : o.searchStart = .fin lo)
    (hhi : o.searchEnd = .fin hi) :
    (∃ r', Restarter.new env o' = .ok r') ↔ ∃ r, Restarter.new env o = .ok r := by
  unfold Restarter.new
  have e : Flt.feq (o'.searchEnd - o'.searchStart) 0 =
      Flt.feq (o.searchEnd - o.searchStart) 0 := by
    rw [h.start hlo, h.stop hhi, hlo, hhi, XR.sub_fin, XR.sub_fin,
      show α * hi + τ - (α * lo + τ) = α * (hi - lo) by ring, XR.zero_eq]
    show decide (_ = _) = decide (_ = _)
    simp [Fmt.toK, hα.ne']
  rw [e]
  dsimp only
  split
  · simp
  · split <;> simp

/-- **C103.** In exact arithmetic, let the restart options `o'` be `o` with the search range moved
by `x ↦ α x + τ` for an `α > 0` (and `tol_x`, if given, scaled and the constraints moved), let the
objective functions be moved too, and let the generator draw moved numbers from the moved range.
Then both restarters have the same outcome: both panic in the same way, or neither ends, or both
return the same results with a moved best point, after the same number of runs, each of which is the
moved run. -/
theorem c103_move (hα : 0 < α) (ho : MovedRestart α τ o o') (hlo : o.searchStart = .fin lo)
    (hhi : o.searchEnd = .fin hi) (hd : MovedDraws env α τ lo hi)
    {r r' : Restarter n XR R} (h : Restarter.new env o = .ok r)
    (h' : Restarter.new env o' = .ok r') {src src' : ObjSource n XR}
    (hsrc : src.MovedBy (affine α fun _ => τ) src') (kind : EvalKind) (reuse : Bool) :
    Outcome.Rel (fun x y => y.1 = x.1.moved (affine α fun _ => τ) ∧
        List.Forall₂ (RunRecord.MovedBy α fun _ => τ) x.2.records y.2.records)
      (r.runInternal env kind src reuse) (r'.runInternal env kind src' reuse) := by
  have hr := restarter_new' h
  have hr' := restarter_new' h'
  let S := moveSim env kind hα ho hlo hhi hd
  have hseed : o'.seed = o.seed := by rw [ho.rest]
  have hstrat : o'.strategy = o.strategy := by rw [ho.rest]
  have hprint : o'.enablePrinting = o.enablePrinting := by rw [ho.rest]
  have hstart : S.StateRel (r.start env src) (r'.start env src') := by
    subst hr hr'
    refine ⟨rfl, rfl, ?_, ?_, rfl, .inr ?_, rfl, rfl, ?_, ?_, rfl, .none, .nil⟩
    · exact hstrat
    · show env.restartRng.seed (o'.seed.getD _) = _
      rw [hseed]; rfl
    · simp only [Restarter.start, World.now, hprint]
      split <;> rfl
    · show _ ∧ _
      simp only [Restarter.start, World.now, hprint]
      split <;> exact ⟨rfl, rfl⟩
    cases hsrc with
    | factory hf =>
      refine .factory fun l l' hl => ?_
      have : l' = l.map (moveCalls (affine α fun _ => τ)) := by
        clear hf h h'
        induction hl with
        | nil => rfl
        | cons e _ ih =>
          rw [List.map_cons, ih]
          congr 1
      rw [this]
      exact hf l
    | once hf => exact .once (.some hf)
  refine (RestartSim.runInternal (S := S) hstart : Outcome.Rel _ _ _).mono ?_
  rintro x y ⟨h2, h3⟩
  refine ⟨h2, h3.records.imp fun a b hab => ?_⟩
  obtain ⟨h1, hdata⟩ := hab.run
  refine ⟨hab.options, hdata, ?_, ?_, ?_, ?_, h1.sampler.functionEvals, ?_, h1.sampler.obj.log⟩
  · unfold CMAES.mean; rw [h1.state]; rfl
  · unfold CMAES.sigma; rw [h1.state]; rfl
  · unfold CMAES.covarianceMatrix; rw [h1.state]; rfl
  · unfold CMAES.generation; rw [h1.state]; rfl
  · unfold CMAES.overallBestIndividual; rw [h1.history]; rfl

end

namespace WitnessReal

/-- One run of the local restart strategy, from a point with coordinates between 1 and 3. -/
noncomputable def restartOpts : RestartOptions 2 XR :=
  { RestartOptions.new 2 (.fin 1) (.fin 3)
      (.local { runs := 0, initialStepSizeFactor := .fin (1 / 2), maxRuns := 1 }) with
    searchStart := .fin 1
    searchEnd := .fin 3
    defaultOptions := opts.toOptionsCore
    maxGenerationsPerRun := some 1
    enablePrinting := true
    seed := some 0 }

/-- The same with coordinates between 1 and 5. -/
noncomputable def movedRestartOpts : RestartOptions 2 XR :=
  { restartOpts with
    searchStart := .fin 2 * .fin 1 + .fin (-1)
    searchEnd := .fin 2 * .fin 3 + .fin (-1) }

/-- The sphere function around `(-1, -1)`, at half the scale; zero for points that are not real. -/
noncomputable def shiftedSphere : Obj 2 XR :=
  { f := fun _ y => .fin (sphereValue fun i => .fin (1 / 2) * (y i + .fin 1)), log := [] }

theorem moved_restart : MovedRestart 2 (-1) restartOpts movedRestartOpts := ⟨rfl, .none⟩

theorem moved_draws : MovedDraws (renv 2) 2 (-1) 1 3 := fun _ => rfl

theorem shifted_sphere : sphere.MovedBy (affine 2 fun _ => -1) shiftedSphere := by
  refine ⟨fun log x => ?_, rfl⟩
  show Ext.fin (sphereValue _) = Ext.fin (sphereValue x)
  congr 2
  funext i
  show .fin (1 / 2) * (.fin 2 * x i + .fin (-1) + .fin 1) = x i
  cases x i with
  | nan => rfl
  | pinf =>
    rw [XR.scale_pinf (by norm_num)]
    exact XR.scale_pinf (by norm_num)
  | ninf =>
    rw [XR.scale_ninf (by norm_num)]
    exact XR.scale_ninf (by norm_num)
  | fin v =>
    rw [XR.mul_fin, XR.add_fin, XR.add_fin, XR.mul_fin]
    congr 1
    ring

theorem restart_builds : ∃ r, Restarter.new (renv 2) restartOpts = .ok r := by
  unfold Restarter.new
  have : Flt.feq (restartOpts.searchEnd - restartOpts.searchStart) 0 = false := by
    show Flt.feq (.fin 3 - .fin 1 : XR) 0 = false
    rw [XR.sub_fin, XR.zero_eq]
    show decide (_ = _) = false
    norm_num [Fmt.toK]
  rw [this]
  exact ⟨_, rfl⟩

/-- The options of the run. -/
noncomputable def runOpts : Options 2 XR :=
  { opts with
    initialMean := Vec.fin fun _ => 1
    initialStepSize := .fin (1 / 100)
    maxGenerations := some 1
    seed := some 2 }

/-- A run returns after one generation. -/
theorem run_returns (w : World 2 XR) (k : Nat) :
    ∃ x, buildRun (renv 2) .seq true w sphere runOpts k = .ok x := by
  obtain ⟨c0, h0⟩ := (c30_valid_iff (renv 2) w sphere runOpts).mpr (by
    refine ⟨by norm_num, by show 2 ≤ 6; norm_num, ⟨?_, ?_⟩, ?_, ?_, ?_⟩
    · show Flt.isNormal (.fin (1 / 100) : XR) = true
      rw [XR.isNormal_fin]; simp
    · show Flt.lt 0 (.fin (1 / 100) : XR) = true
      rw [XR.zero_eq, XR.lt_fin]; simp
    · show Flt.isNormal (1 : XR) = true
      rw [XR.one_eq, XR.isNormal_fin]; simp
    · show Flt.lt 0 (1 : XR) = true
      rw [XR.zero_eq, XR.one_eq, XR.lt_fin]; simp
    · show Flt.le 1 (1 : XR) = true
      rw [XR.one_eq, XR.le_fin]; simp)
  unfold buildRun
  rw [h0]
  simp only [if_true]
  have hg : (c0.printRunInfo k).generation = 0 := by rw [(new_eq_ok h0).2]; rfl
  have hex : Exec (renv 2) c0 [] (c0.printRunInfo k) :=
    .quiet (op := .printRunInfo k) (.refl _) trivial rfl
  have hx : ExactRun (renv 2) runOpts :=
    ⟨renv_exact, (renv_draws (by norm_num)).real, fun _ => renv_draws (by norm_num), _, rfl⟩
  have hH : History.Of (renv 2) sphere runOpts [] (c0.printRunInfo k) := ⟨w, c0, h0, hex⟩
  obtain ⟨d, res, calls, hn, hl, _, hgen, H⟩ := exact_step hx
    (rateSum_lt_one (by norm_num) (by show 2 ≤ 6; norm_num) (by show 6 ≤ _; norm_num)) hH
    ⟨fun k hk => by simp [runOpts, opts, Options.new] at hk, by rw [hg]; norm_num,
      fun k hk => by simp [runOpts, opts, Options.new] at hk,
      fun k hk => by simp [runOpts, opts, Options.new] at hk, .inl fun l => ⟨_, rfl⟩⟩
    (.inl ⟨rfl, by decide⟩) (fun log x => XR.isNaN_fin _) .seq
  cases res with
  | none =>
    have := (unfinished_below (kind := .seq) hH (.next (.refl _) hn hl) (by simp [Unfinished])
      (by simp)).1 1 rfl
    rw [hgen, hg] at this
    omega
  | some x =>
    unfold CMAES.run
    show ∃ y, (CMAES.runLoop (renv 2) .seq 20 (c0.printRunInfo k) >>= _) = Outcome.ok y
    simp only [CMAES.runLoop, hn, Outcome.ok_bind]
    exact ⟨_, rfl⟩

theorem restart_mean : (generateInitialMean rng (.fin 1) (.fin 3) 0 : Outcome (Vec 2 XR × Nat)) =
    .ok (Vec.fin fun _ => 1, 2) := by
  have hne : (1 - ((1 / 2 ^ 52 : ℚ) : ℝ)) ≠ 0 := by norm_num
  have hr : ∀ r, genRange rng (.fin 1) (.fin 3) r = .ok (.fin 1, r + 1) := by
    intro r
    unfold genRange
    simp only [XR.sub_fin, XR.one_eq, XR.ofRat_eq, XR.div_fin hne, XR.isInf_fin, XR.isNaN_fin,
      XR.le_fin]
    norm_num
    rfl
  simp only [generateInitialMean, genRanges, hr, Outcome.ok_bind, Outcome.ok.injEq, Prod.mk.injEq,
    and_true]
  funext i
  fin_cases i <;> rfl

theorem restart_options : Strategy.configure (n := 2) rng restartOpts.strategy
      (restartOpts.runOptions (Vec.fin fun _ => 1) 2)
      (Flt.abs (restartOpts.searchEnd - restartOpts.searchStart)) 3 = .ok (runOpts, 3) := by
  have : Flt.abs (restartOpts.searchEnd - restartOpts.searchStart) * .fin (1 / 2) *
      Flt.ofRat (1 / 100) = (.fin (1 / 100) : XR) := by
    show Flt.abs (.fin 3 - .fin 1 : XR) * .fin (1 / 2) * Flt.ofRat (1 / 100) = _
    rw [XR.sub_fin, XR.abs_fin, XR.mul_fin, XR.ofRat_eq, XR.mul_fin]
    norm_num
  show Outcome.ok (({ restartOpts.runOptions (Vec.fin fun _ => 1) 2 with
    initialStepSize := Flt.abs (restartOpts.searchEnd - restartOpts.searchStart) * .fin (1 / 2) *
      Flt.ofRat (1 / 100) } : Options 2 XR), 3) = _
  rw [this]
  rfl

theorem restart_returns {r : Restarter 2 XR Nat} (h : Restarter.new (renv 2) restartOpts = .ok r) :
    ∃ res s, r.runInternal (renv 2) .seq (.once (some sphere)) false = .ok (res, s) ∧
      res.runs = 1 := by
  have hr := restarter_new' h
  have hp : (r.start (renv 2) (.once (some sphere))).precheck (renv 2) =
      (none, r.start (renv 2) (.once (some sphere))) := by
    subst hr; rfl
  obtain ⟨s1, x, h1, h1r⟩ : ∃ s1 x,
      (r.start (renv 2) (.once (some sphere))).oneRun (renv 2) .seq = .ok (s1, x, .maxRunsReached) ∧
      s1.runs = 1 := by
    rw [oneRun_eq]
    subst hr
    have hm : (generateInitialMean (renv 2).restartRng restartOpts.searchStart restartOpts.searchEnd
        ((renv 2).restartRng.seed (restartOpts.seed.getD (renv 2).randomSeed)) :
          Outcome (Vec 2 XR × Nat)) = .ok (Vec.fin fun _ => 1, 2) := restart_mean
    simp only [Restarter.start]
    simp only [hm, Outcome.ok_bind]
    simp only [RestartState.takeObjective, ObjSource.call, Outcome.ok_bind]
    have hc : Strategy.configure (n := 2) (renv 2).restartRng restartOpts.strategy
      (restartOpts.runOptions (Vec.fin fun _ => 1) ((renv 2).restartRng.u64 2).1)
      (Flt.abs (restartOpts.searchEnd - restartOpts.searchStart)) ((renv 2).restartRng.u64 2).2 =
        .ok (runOpts, 3) := restart_options
    rw [hc]
    simp only [Outcome.ok_bind]
    generalize ((if restartOpts.enablePrinting = true then _ else _ : World 2 XR).now (renv 2)) = w
    obtain ⟨y, hy⟩ := run_returns w.2 1
    have hy' : buildRun (renv 2) .seq restartOpts.enablePrinting w.2 sphere runOpts (0 + 1) =
      .ok y := hy
    simp only [hy', Outcome.ok_bind]
    exact ⟨_, _, rfl, rfl⟩
  have hpost : ∃ a s2, s1.postcheck x .maxRunsReached = (some a, s2) ∧ s2.runs = 1 := by
    unfold RestartState.postcheck
    split
    · exact ⟨_, _, rfl, h1r⟩
    · cases x.final.overallBestIndividual <;> dsimp only <;> split <;> exact ⟨_, _, rfl, h1r⟩
  obtain ⟨a, s2, h2, h2r⟩ := hpost
  unfold Restarter.runInternal
  show ∃ res s, (RestartState.loop (renv 2) .seq false (19 + 1) _ >>= _) = Outcome.ok (res, s) ∧ _
  simp only [RestartState.loop, hp, h1, Outcome.ok_bind, h2]
  exact ⟨_, _, rfl, h2r⟩

/-- C103: the hypotheses are met by restarters that return after a run. -/
example : ∃ r r' res s res' s',
    MovedRestart 2 (-1) restartOpts movedRestartOpts ∧ MovedDraws (renv 2) 2 (-1) 1 3 ∧
    Restarter.new (renv 2) restartOpts = .ok r ∧
    Restarter.new (renv 2) movedRestartOpts = .ok r' ∧
    (ObjSource.once (some sphere)).MovedBy (affine 2 fun _ => -1) (.once (some shiftedSphere)) ∧
    r.runInternal (renv 2) .seq (.once (some sphere)) false = .ok (res, s) ∧
    r'.runInternal (renv 2) .seq (.once (some shiftedSphere)) false = .ok (res', s') ∧
    res.runs = 1 ∧ res' = res.moved (affine 2 fun _ => -1) := by
  obtain ⟨r, h⟩ := restart_builds
  obtain ⟨r', h'⟩ := (c103_builds (by norm_num) moved_restart rfl rfl).mpr ⟨r, h⟩
  obtain ⟨res, s, hrun, hruns⟩ := restart_returns h
  have hrel := c103_move (by norm_num) moved_restart rfl rfl moved_draws h h'
    (.once shifted_sphere) .seq false
  rw [hrun] at hrel
  generalize hy : r'.runInternal _ .seq _ false = y at hrel
  cases hrel with
  | ok hrel =>
    exact ⟨r, r', res, s, _, _, moved_restart, moved_draws, h, h', .once shifted_sphere, hrun, hy,
      hruns, hrel.1⟩

end WitnessReal

end Cmaes
