import Verif.Spec.RestartMirror
import Verif.Props.MirrorOutcome
import Verif.Props.Reproduce

/-!
# C77: a restarter that maximizes `f` and one that minimizes `-f`
-/

set_option linter.unusedSectionVars false

namespace Cmaes
variable {n : Nat} {F R : Type} [Flt F] [FltLaws F]

theorem configure_mode {rng : RngOps R F} {s : Strategy F} {o o' : Options n F} {size : F}
    {r r' : R} (h : s.configure rng o size r = .ok (o', r')) : o'.mode = o.mode := by
  unfold Strategy.configure at h
  split at h
  · simp only [Outcome.ok.injEq, Prod.mk.injEq] at h
    obtain ⟨rfl, _⟩ := h
    rfl
  · simp only [Outcome.bind_eq_ok, Outcome.ok.injEq, Prod.mk.injEq] at h
    obtain ⟨_, _, rfl, _⟩ := h
    rfl
  · split at h
    · simp only [Outcome.ok.injEq, Prod.mk.injEq] at h
      obtain ⟨rfl, _⟩ := h
      rfl
    · simp only [Outcome.bind_eq_ok, Outcome.ok.injEq, Prod.mk.injEq] at h
      obtain ⟨_, _, rfl, _⟩ := h
      rfl

theorem configure_mirrored (rng : RngOps R F) (s : Strategy F) (o : Options n F) (size : F) (r : R) :
    s.configure rng o.mirrored size r =
      (fun x => (Options.mirrored x.1, x.2)) <$> s.configure rng o size r := by
  rw [Outcome.map_eq_bind]
  unfold Strategy.configure
  cases s with
  | «local» s => rfl
  | ipop s =>
    have e : o.mirrored.populationSize = o.populationSize := rfl
    dsimp only
    rw [e]
    generalize usizeMul o.populationSize s.currentMultiplier = u
    cases u <;> rfl
  | bipop s =>
    have e : o.mirrored.populationSize = o.populationSize := rfl
    dsimp only
    rw [e]
    generalize usizeMul o.populationSize s.ipopCurrentMultiplier = u
    by_cases h : s.useLr = true
    · rw [if_pos h, if_pos h]; rfl
    · rw [if_neg h, if_neg h]
      cases u <;> rfl

/-- The comparison of a restarter that maximizes with one that minimizes. -/
def mirrorSim (env : Env n F R) (kind : EvalKind) {ro : RestartOptions n F}
    (hmax : ro.mode = .maximize) : RestartSim env env kind kind ro ro.mirrored where
  T := .same
  WRel w w' := w'.steps = w.steps ∧ w'.clockReads = w.clockReads
  ORel obj obj' := MirroredMedians env obj.f ∧ obj.Mirrors obj'
  LRel l l' := l' = mapCalls (fun v => -v) l
  φ := fun v => -v
  ψ := Individual.mapValue fun v => -v
  μ := id
  OptRel o o' := o.mode = .maximize ∧ o' = o.mirrored
  RunRel c d c' d' := FullMirror c c' ∧ MirroredMedians env c.sampler.obj.f ∧ d' = d.negated
  restartRng := rfl
  restartFuel := rfl
  ψ_value _ := rfl
  mean _ := Relator.same.of_eq rfl fun _ _ => rfl
  maxFunctionEvals := rfl
  maxTime := rfl
  configure s mean seed r := by
    have h := configure_mirrored env.restartRng s (ro.runOptions mean seed)
      (Flt.abs (ro.searchEnd - ro.searchStart)) r
    have h' : s.configure env.restartRng (ro.mirrored.runOptions (id mean) seed)
        (Flt.abs (ro.mirrored.searchEnd - ro.mirrored.searchStart)) r = _ := h
    rw [h', Outcome.map_eq_bind]
    cases hc : s.configure env.restartRng (ro.runOptions mean seed)
        (Flt.abs (ro.searchEnd - ro.searchStart)) r with
    | ok x => exact .ok ⟨⟨(configure_mode hc).trans hmax, rfl⟩, rfl⟩
    | panic p => exact .panic p
    | diverge => exact .diverge
  now := by
    rintro w w' ⟨h1, h2⟩
    refine ⟨⟨h1, ?_⟩, .inr ?_⟩ <;> simp [World.now, h2]
  print_run := by
    intro w w' k b l e h
    split <;> split <;> exact h
  print_results := by
    intro w w' e r b h
    split <;> split <;> exact h
  run := by
    rintro w w' obj obj' o _ k hw ⟨hm, h1, h2⟩ ⟨hmo, rfl⟩
    have hv : CMAES.validate o.mirrored = CMAES.validate o := rfl
    simp only [buildRun, CMAES.new, hv]
    cases hvo : CMAES.validate o with
    | some e => exact Relator.same.panic _
    | none =>
      have h0 : CMAES.new env w obj o = .ok (CMAES.create env w obj o) := by
        unfold CMAES.new; rw [hvo]
      have hc : FullMirror (CMAES.create env w obj o) (CMAES.create env w' obj' o.mirrored) :=
        FullMirror.create hmo h1 h2 hw
      have key : ∀ {c c' : CMAES n F R}, Exec env (CMAES.create env w obj o) [] c →
          FullMirror c c' → Outcome.Rel (fun x y => FullMirror x.1 y.1 ∧
              MirroredMedians env x.1.sampler.obj.f ∧ y.2 = x.2.negated)
            (c.run env kind) (c'.run env kind) := by
        intro c c' he hcc
        have hr := FullMirror.run (kind := kind) hm h0 he hcc
        generalize hx : c.run env kind = x at hr
        generalize c'.run env kind = y at hr
        cases hr with
        | panic p => exact .panic p
        | diverge => exact .diverge
        | ok hab =>
          rename_i a b
          obtain ⟨a, d⟩ := a
          refine .ok ⟨hab.1, ?_, hab.2⟩
          obtain ⟨t, ht, _⟩ := apply_exec (env := env) (op := .run kind) (c := c) (c' := a)
            (r := some d)
            (by simp only [CMAES.apply, hx]; rfl)
          obtain ⟨_, i, _⟩ := fresh_inv ⟨w, _, h0, he.trans ht⟩
          show MirroredMedians env a.sampler.obj.f
          rw [i.f]
          exact hm
      simp only
      show Outcome.Rel _ (CMAES.run env kind (if ro.enablePrinting then _ else _))
        (CMAES.run env kind (if ro.enablePrinting then _ else _))
      cases ro.enablePrinting with
      | false => exact key (.refl _) hc
      | true =>
        exact key (.quiet (op := .printRunInfo k) (.refl _) trivial rfl) (hc.print _ _)
  run_world h := ⟨h.1.steps, h.1.clockReads⟩
  run_obj h := ⟨h.2.1, h.1.sampler.obj.f, h.1.sampler.obj.log⟩
  run_log h := h.1.sampler.obj.log
  run_evals h := h.1.sampler.functionEvals
  run_best h := h.1.history.overallBest
  run_reasons h := by rw [h.2.2]; rfl
  better a b := by
    rw [hmax]
    exact isBetter_neg a b

/-- **C77.** A restarter that maximizes and one that minimizes the negated objective functions (with
a negated target, otherwise equal options) have the same outcome: the same results with the best
value negated and the same runs with negated values, or the same panic. -/
theorem c77_mirror {env : Env n F R} {o : RestartOptions n F} (hmax : o.mode = .maximize)
    {r r' : Restarter n F R} (h : Restarter.new env o = .ok r)
    (h' : Restarter.new env o.mirrored = .ok r') {src src' : ObjSource n F}
    (hsrc : src.Mirrored (fun f => MirroredMedians env f.f) src') (kind : EvalKind)
    (reuse : Bool) :
    Outcome.Rel (fun x y => y.1 = x.1.negated ∧
        List.Forall₂ RunRecord.Mirrors x.2.records y.2.records)
      (r.runInternal env kind src reuse) (r'.runInternal env kind src' reuse) := by
  have hr := restarter_new' h
  have hr' := restarter_new' h'
  let S := mirrorSim env kind hmax
  have hstart : S.StateRel (r.start env src) (r'.start env src') := by
    subst hr hr'
    refine ⟨rfl, rfl, rfl, rfl, rfl, .inr rfl, rfl, rfl, ?_, ?_, rfl, .none, .nil⟩
    · exact (⟨rfl, rfl⟩ : _ ∧ _)
    cases hsrc with
    | factory hf =>
      refine .factory fun l l' hl => ?_
      have : l' = l.map (mapCalls fun v => -v) := by
        clear hf h h'
        induction hl with
        | nil => rfl
        | cons e _ ih =>
          rw [List.map_cons, ih]
          congr 1
      rw [this]
      exact hf l
    | once hf => exact .once (.some hf)
  refine (RestartSim.runInternal (S := S) hstart : Outcome.Rel _ _ _).mono ?_
  rintro x y ⟨h2, h3⟩
  refine ⟨h2, h3.records.imp fun a b hab => ?_⟩
  obtain ⟨h1, _, hd⟩ := hab.run
  refine ⟨hab.options.2, hd, ?_, ?_, ?_, ?_, h1.sampler.functionEvals, ?_, h1.sampler.obj.log⟩
  · unfold CMAES.mean; rw [h1.state]
  · unfold CMAES.sigma; rw [h1.state]
  · unfold CMAES.covarianceMatrix; rw [h1.state]
  · unfold CMAES.generation; rw [h1.state]
  · exact h1.history.overallBest

section Examples
open Witness

/-- Three runs that maximize the negated sphere function, and the results of minimizing the sphere
function. -/
example : ∃ r r' res s res' s',
    Restarter.new (wenv 2) { restartOpts (localStrategy 3) with mode := .maximize } = .ok r ∧
    Restarter.new (wenv 2)
      (RestartOptions.mirrored { restartOpts (localStrategy 3) with mode := .maximize }) = .ok r' ∧
    (ObjSource.once (some negSphere)).Mirrored (fun f => MirroredMedians (wenv 2) f.f)
      (.once (some sphere)) ∧
    r.runInternal (wenv 2) .seq (.once (some negSphere)) true = .ok (res, s) ∧
    r'.runInternal (wenv 2) .seq (.once (some sphere)) true = .ok (res', s') ∧
    res' = res.negated ∧ res.runs = 3 ∧ res.best.isSome = true := by
  obtain ⟨r, res, s, h0, h, hp⟩ := of_tryRestart (env := wenv 2) (kind := .seq)
    (src := .once (some negSphere)) (reuse := true)
    (o := { restartOpts (localStrategy 3) with mode := .maximize })
    (p := fun res _ => decide (res.runs = 3 ∧ res.best.isSome = true)) (by decide +kernel)
  obtain ⟨r', _, _, h0', _, _⟩ := of_tryRestart (env := wenv 2) (kind := .seq)
    (src := .once (some sphere)) (reuse := true)
    (o := RestartOptions.mirrored { restartOpts (localStrategy 3) with mode := .maximize })
    (p := fun res _ => true) (by decide +kernel)
  have hs : (ObjSource.once (some negSphere)).Mirrored (fun f => MirroredMedians (wenv 2) f.f)
      (.once (some sphere)) :=
    .once ⟨mirror_medians _, fun l x => (flt_neg_neg _).symm, rfl⟩
  have hrel := c77_mirror rfl h0 h0' hs .seq true
  rw [h] at hrel
  generalize hy : r'.runInternal _ .seq _ true = y at hrel
  cases hrel with
  | ok hrel => exact ⟨r, r', res, s, _, _, h0, h0', hs, h, hy, hrel.1, of_decide_eq_true hp⟩

end Examples

end Cmaes
