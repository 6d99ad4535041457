import Verif.Props.NoPanic
import Verif.Props.Mirror
import Verif.Props.Build
import Verif.Model.Functions

/-!
# The convenience functions and `Scale` (C48, C49)
-/

namespace Cmaes
variable {n : Nat} {F R : Type} [Flt F] [FltLaws F]
variable {env : Env n F R} {kind : EvalKind} {obj : Obj n F} {o : Options n F}
  {t : List (NextCall n F)} {c c0 : CMAES n F R} {mean : Vec n F} {step : F}
open FltLaws

set_option linter.unusedSectionVars false

/-! ### C48 -/

/-- `fmin` (`minimize`) or `fmax` (`maximize`). -/
def convenience (mode : Mode) (env : Env n F R) (kind : EvalKind) (obj : Obj n F) (mean : Vec n F)
    (step : F) : Outcome (Individual n F × CMAES n F R) :=
  match mode with
  | .minimize => fmin env kind obj mean step
  | .maximize => fmax env kind obj mean step

/-- The documented configuration: default options, the mode, and printing every 200 evaluations. -/
def documentedOptions (mode : Mode) (mean : Vec n F) (step : F) : Options n F :=
  { Options.new mean step with mode := mode, printGapEvals := some 200 }

theorem convenience_eq (mode : Mode) : convenience mode env kind obj mean step =
    optimize env kind obj (documentedOptions mode mean step) := by
  cases mode <;> rfl

/-- The first generation of a fresh `CMAES` met a NaN. -/
def FirstGenerationNaN (env : Env n F R) (kind : EvalKind) (obj : Obj n F) (c0 : CMAES n F R) :
    Prop :=
  ∃ c r calls, c0.next env kind = .ok (c, r) ∧ c.intoObjectiveFunction.log = obj.log ++ calls ∧
    ∃ e ∈ calls, Flt.isNaN e.2 = true

/-- **C48, invalid options.** `fmin` and `fmax` panic with "Invalid options" exactly for dimension
zero or a step size that is not normal and positive; `panics` excludes panics of that kind from
elsewhere. -/
theorem c48_invalid (mode : Mode) (one : Flt.isNormal (1 : F) = true)
    (hrun : ∀ c0, CMAES.new env World.init obj (documentedOptions mode mean step) = .ok c0 →
      c0.run env kind ≠ .panic .invalidOptions) :
    convenience mode env kind obj mean step = .panic .invalidOptions ↔
      (n = 0 ∨ ¬ (Flt.isNormal step = true ∧ Flt.lt 0 step = true)) := by
  have hb := c30_valid_iff env World.init obj (documentedOptions mode mean step)
  have hd := c30_valid_iff env World.init obj (Options.new mean step)
  have hiff : (∃ c, CMAES.new env World.init obj (documentedOptions mode mean step) = .ok c) ↔
      0 < n ∧ (Flt.isNormal step = true ∧ Flt.lt 0 step = true) := by
    rw [hb]
    constructor
    · rintro ⟨h1, _, h2, _⟩; exact ⟨h1, h2⟩
    · rintro ⟨h1, h2, h3⟩
      exact hd.mp (c32_default_builds env World.init obj mean step h1 h2 h3 one)
  rw [convenience_eq]
  unfold optimize
  cases hn : CMAES.new env World.init obj (documentedOptions mode mean step) with
  | error e =>
    simp only [true_iff]
    by_contra hc
    push Not at hc
    have := hiff.mpr ⟨by omega, hc.2⟩
    rw [hn] at this
    simp at this
  | ok c0 =>
    have := hiff.mp ⟨c0, hn⟩
    simp only
    constructor
    · intro h
      rw [Outcome.bind_eq_panic] at h
      rcases h with h | ⟨⟨c, d⟩, _, h⟩
      · exact absurd h (hrun c0 hn)
      · simp only at h
        rw [Outcome.bind_eq_panic] at h
        rcases h with h | ⟨_, _, h⟩
        · cases hob : d.overallBest <;> rw [hob] at h <;> simp [Outcome.unwrap] at h
        · simp at h
    · rintro (h | h)
      · omega
      · exact absurd this.2 h

/-- What a run that ended reports as overall best, in terms of the first generation. -/
theorem run_overallBest {d : TerminationData n F} (h0 : CMAES.new env World.init obj o = .ok c0)
    (hr : c0.run env kind = .ok (c, d)) :
    (FirstGenerationNaN env kind obj c0 ∧ d.overallBest = none) ∨
    (¬ FirstGenerationNaN env kind obj c0 ∧ ∃ x, d.overallBest = some x ∧
      c.overallBestIndividual = some x) := by
  have hof0 : History.Of env obj o [] c0 := ⟨_, c0, h0, .refl c0⟩
  have hlog0 : c0.sampler.obj = obj := (c31_fresh h0).2.2.2.2.2.2.2.2.2
  obtain ⟨t, s, he, hk, hd, hu⟩ := run_ok hr
  obtain ⟨_, e2, _⟩ := he.last_result hd
  have hrun := hr
  unfold CMAES.run at hr
  cases hf : env.runFuel with
  | zero => rw [hf] at hr; simp [CMAES.runLoop] at hr
  | succ fuel =>
    rw [hf] at hr
    simp only [CMAES.runLoop, Outcome.bind_eq_ok] at hr
    obtain ⟨⟨c2, d2⟩, ⟨⟨c1, r1⟩, h1, h2⟩, h3⟩ := hr
    simp only at h2 h3
    injection h3 with h3
    obtain ⟨calls, hl⟩ := next_log h1
    have hnan := c11_nan h1 hl
    have hl' : c1.intoObjectiveFunction.log = obj.log ++ calls := by rw [← hlog0]; exact hl
    have hfirst : FirstGenerationNaN env kind obj c0 ↔ ∃ e ∈ calls, Flt.isNaN e.2 = true := by
      constructor
      · rintro ⟨c', r', calls', h1', hlog', hex⟩
        rw [h1] at h1'
        simp only [Outcome.ok.injEq, Prod.mk.injEq] at h1'
        obtain ⟨rfl, rfl⟩ := h1'
        rw [hl'] at hlog'
        rwa [List.append_cancel_left hlog']
      · exact fun h => ⟨c1, r1, calls, h1, hl', h⟩
    have hs0 : Exec env c0 [⟨kind, calls, r1⟩] c1 := .next (.refl c0) h1 hl
    have hof1 := hof0.trans hs0
    have hp := (c03_presence hof1).2
    by_cases hN : ∃ e ∈ calls, Flt.isNaN e.2 = true
    · left
      refine ⟨hfirst.mpr hN, ?_⟩
      obtain ⟨⟨d1, hr1, _⟩, _, _, _, _, _, _, hov, _⟩ := hnan.2 hN
      subst hr1
      simp only [Outcome.ok.injEq, Prod.mk.injEq] at h2 h3
      obtain ⟨rfl, rfl⟩ := h2
      obtain ⟨rfl, rfl⟩ := h3
      rw [e2]
      have hq := (runInternal_exec (env := env) c1 d1).nil_sameRun
      show (c1.runInternal d1).history.overallBest = none
      rw [hq.history]
      exact hov.trans (c31_fresh h0).2.2.2.2.2.2.2.2.1
    · right
      refine ⟨fun h => hN (hfirst.mp h), ?_⟩
      have hnf : ¬ (NextCall.mk kind calls r1).Failed := fun hfail => hN (hnan.1.mp hfail)
      have hsome : c1.overallBestIndividual.isSome := hp.mpr ⟨_, by simp, hnf⟩
      obtain ⟨x, hx⟩ := Option.isSome_iff_exists.mp hsome
      have hex : ∃ u, Exec env c1 u c := by
        cases r1 with
        | some d1 =>
          simp only [Outcome.ok.injEq, Prod.mk.injEq] at h2 h3
          obtain ⟨rfl, rfl⟩ := h2
          obtain ⟨rfl, rfl⟩ := h3
          exact ⟨_, runInternal_exec _ _⟩
        | none =>
          simp only [Prod.mk.injEq] at h2 h3
          obtain ⟨rfl, rfl⟩ := h3
          obtain ⟨u, cs, h4, _⟩ := runLoop_exec h2
          exact ⟨_, h4.trans (runInternal_exec _ _)⟩
      obtain ⟨u, hu⟩ := hex
      obtain ⟨y, hy, _⟩ := c04_monotone hof1 hu hx
      exact ⟨y, by rw [e2, hy], hy⟩

/-- **C48, after a run that ended.** Given that the options are valid and the run ends, `fmin` and
`fmax` panic with "Objective function returned an invalid value" if the objective returned NaN in
the first generation, and return otherwise. -/
theorem c48_returns {mode : Mode} {d : TerminationData n F}
    (h0 : CMAES.new env World.init obj (documentedOptions mode mean step) = .ok c0)
    (hr : c0.run env kind = .ok (c, d)) :
    (FirstGenerationNaN env kind obj c0 ∧
      convenience mode env kind obj mean step = .panic .invalidValue) ∨
    (¬ FirstGenerationNaN env kind obj c0 ∧
      ∃ x, convenience mode env kind obj mean step = .ok (x, c)) := by
  rw [convenience_eq]
  unfold optimize
  simp only [h0, hr, Outcome.ok_bind]
  rcases run_overallBest h0 hr with ⟨h1, h2⟩ | ⟨h1, x, h2, _⟩
  · exact .inl ⟨h1, by rw [h2]; rfl⟩
  · exact .inr ⟨h1, x, by rw [h2]; rfl⟩

/-- **C48, what is returned.** The individual returned was evaluated during a complete run of a
`CMAES` with the documented configuration, which ended with at least one reason, and no point of a
completed generation is strictly better. -/
theorem c48_best {mode : Mode} {x : Individual n F}
    (h : convenience mode env kind obj mean step = .ok (x, c)) :
    ∃ c0 d, CMAES.new env World.init obj (documentedOptions mode mean step) = .ok c0 ∧
      c0.run env kind = .ok (c, d) ∧ d.reasons ≠ [] ∧
      ∃ t, History.Of env obj (documentedOptions mode mean step) t c ∧
        c.intoObjectiveFunction.log = obj.log ++ allCalls t ∧
        Faithful obj.f obj.log (allCalls t) ∧
        (x.point, x.value) ∈ completedCalls t ∧ Flt.isNaN x.value = false ∧
        ∀ e ∈ completedCalls t, ¬ Better mode e.2 x.value := by
  rw [convenience_eq] at h
  unfold optimize at h
  split at h
  · simp at h
  · rename_i c0 h0
    simp only [Outcome.bind_eq_ok, Outcome.ok.injEq, Prod.mk.injEq] at h
    obtain ⟨⟨c', d⟩, hr, y, hy, rfl, rfl⟩ := h
    simp only at hy hr ⊢
    have hof0 : History.Of env obj (documentedOptions mode mean step) [] c0 := ⟨_, c0, h0, .refl c0⟩
    obtain ⟨t, s, he, hk, hd, hu⟩ := run_ok hr
    obtain ⟨_, e2, _⟩ := he.last_result hd
    have hof := hof0.trans he
    have hx : c'.overallBestIndividual = some y := by
      rw [← e2]
      cases hob : d.overallBest with
      | none => rw [hob] at hy; simp [Outcome.unwrap] at hy
      | some z => rw [hob] at hy; simp [Outcome.unwrap] at hy; rw [hy]
    obtain ⟨hnn, hbest, t1, s1, t2, ht, hnf, hmem, _⟩ := c01_overall_best hof hx
    obtain ⟨hlog, hfa⟩ := c01_calls_are_real hof
    refine ⟨c0, d, h0, hr, (c17_run hr).1, [] ++ (t ++ [s]), hof, hlog, hfa, ?_, hnn, hbest⟩
    rw [ht]
    unfold completedCalls
    rw [List.mem_flatMap]
    exact ⟨s1, by simp [hnf], hmem⟩

/-- **C48, no other panics.** Any other panic of `fmin` or `fmax` needs a reachable state outside
`CanStep` (C26), that is, `2^30 - 1` generations, `2^64 - 200` evaluations, or a failing library
median. -/
theorem c48_no_other_panic {mode : Mode} {p : Panic}
    (h : convenience mode env kind obj mean step = .panic p) :
    p = .invalidOptions ∨ p = .invalidValue ∨
      ∃ u c1, History.Of env obj (documentedOptions mode mean step) u c1 ∧
        ¬ CanStep env obj (documentedOptions mode mean step) c1 := by
  rw [convenience_eq] at h
  unfold optimize at h
  split at h
  · injection h with h; exact .inl h.symm
  · rename_i c0 h0
    have hof0 : History.Of env obj (documentedOptions mode mean step) [] c0 := ⟨_, c0, h0, .refl c0⟩
    rw [Outcome.bind_eq_panic] at h
    rcases h with h | ⟨⟨c', d⟩, hr, h⟩
    · obtain ⟨u, c1, h1, h2⟩ := c26_op (op := .run kind) hof0
        (by simp only [CMAES.apply, h]; rfl)
      exact .inr (.inr ⟨_, c1, hof0.trans h1, h2⟩)
    · simp only at h
      rw [Outcome.bind_eq_panic] at h
      rcases h with h | ⟨_, _, h⟩
      · cases hob : d.overallBest <;> rw [hob] at h <;> simp [Outcome.unwrap] at h
        exact .inr (.inl h.symm)
      · simp at h

/-- **C48, `fmax` is `fmin` of the negated function.** If both return, they return the same point
and opposite values. -/
theorem c48_fmax {obj' : Obj n F} {x x' : Individual n F} {c c' : CMAES n F R}
    (hobj : Transformed (fun v => -v) obj.f obj'.f)
    (hlog : obj'.log = mapCalls (fun v => -v) obj.log)
    (hmed : MirroredMedians env obj.f)
    (h : fmax env kind obj mean step = .ok (x, c))
    (h' : fmin env kind obj' mean step = .ok (x', c')) :
    x'.point = x.point ∧ x'.value = -x.value ∧ c'.functionEvals = c.functionEvals := by
  have e : fmax env kind obj mean step = optimize env kind obj
    (documentedOptions .maximize mean step) := rfl
  have e' : fmin env kind obj' mean step = optimize env kind obj'
    (documentedOptions .maximize mean step).mirrored := rfl
  rw [e] at h
  rw [e'] at h'
  unfold optimize at h h'
  split at h
  · simp at h
  rename_i c0 h0
  split at h'
  · simp at h'
  rename_i c0' h0'
  simp only [Outcome.bind_eq_ok, Outcome.ok.injEq, Prod.mk.injEq] at h h'
  obtain ⟨⟨c1, d⟩, hr, y, hy, rfl, rfl⟩ := h
  obtain ⟨⟨c1', d'⟩, hr', y', hy', rfl, rfl⟩ := h'
  obtain ⟨h1, h2, _⟩ := c13_run (t := []) (t' := []) rfl hobj hlog ⟨rfl, rfl⟩ hmed h0 h0'
    (.refl c0) (.refl c0') rfl hr hr'
  subst h1
  have hov : (d.negated).overallBest = d.overallBest.map Individual.negated := rfl
  simp only [hov] at hy'
  cases hob : d.overallBest with
  | none => simp only [hob] at hy; simp [Outcome.unwrap] at hy
  | some z =>
    simp only [hob, Option.map_some, Outcome.unwrap_some, Outcome.ok.injEq] at hy hy'
    subst hy hy'
    exact ⟨rfl, rfl, h2⟩

/-! ### The hypotheses of C48 are met -/

open Witness in
/-- A sphere function that fails on its twentieth call. -/
def nanAtTwenty : Obj 2 F64 :=
  { f := fun log x => if log.length = 19 then Flt.nan else x 0 * x 0 + x 1 * x 1, log := [] }

open Witness in
/-- `fmin` returns although the objective fails in a later generation (`c48_best`,
`c48_returns`). -/
example : ∃ x c, fmin (wenv 2) .seq nanAtTwenty (fun _ => 3) 1 = .ok (x, c) ∧ c.generation = 1 := by
  obtain ⟨⟨x, c⟩, h, h1⟩ := Outcome.of_check
    (x := fmin (wenv 2) .seq nanAtTwenty (fun _ => 3) 1)
    (p := fun x => decide (x.2.generation = 1)) (by decide +kernel)
  exact ⟨x, c, h, of_decide_eq_true h1⟩

open Witness in
/-- `fmin` panics if the objective fails in the first generation, and for a step size of zero. -/
example :
    (match fmin (wenv 2) .seq ⟨fun _ _ => Flt.nan, []⟩ (fun _ => 3) 1 with
      | .panic p => decide (p = .invalidValue)
      | _ => false) = true ∧
    (match fmin (wenv 2) .seq nanAtTwenty (fun _ => 3) 0 with
      | .panic p => decide (p = .invalidOptions)
      | _ => false) = true := by
  constructor <;> decide +kernel

open Witness in
/-- `fmax` and `fmin` of the negated function both return (`c48_fmax`). -/
example : ∃ x c x' c', fmax (wenv 2) .par negSphere (fun _ => 3) 1 = .ok (x, c) ∧
    fmin (wenv 2) .par sphere (fun _ => 3) 1 = .ok (x', c') ∧
    Transformed (fun v => -v) negSphere.f sphere.f ∧ MirroredMedians (wenv 2) negSphere.f := by
  obtain ⟨⟨x, c⟩, h, _⟩ := Outcome.of_check (x := fmax (wenv 2) .par negSphere (fun _ => 3) 1)
    (p := fun _ => true) (by decide +kernel)
  obtain ⟨⟨x', c'⟩, h', _⟩ := Outcome.of_check (x := fmin (wenv 2) .par sphere (fun _ => 3) 1)
    (p := fun _ => true) (by decide +kernel)
  refine ⟨x, c, x', c', h, h', ?_, mirror_medians _⟩
  intro log x
  show x 0 * x 0 + x 1 * x 1 = -(-(x 0 * x 0 + x 1 * x 1))
  exact (flt_neg_neg _).symm

/-! ### C49 -/

/-- **C49, one call.** `Scale` calls the wrapped function exactly once, at the component-wise
product, and returns its value; with scales of another length it panics and calls nothing. -/
theorem c49_evaluate {m : Nat} (s : Scale n m F) (x : Vec n F) :
    (∀ h : n = m, ∃ v s', s.evaluate x = .ok (v, s') ∧
      v = s.function.f s.function.log (fun i => x i * s.scales (i.cast h)) ∧
      s'.scales = s.scales ∧ s'.function.f = s.function.f ∧
      s'.intoWrappedFunction.log =
        s.function.log ++ [(fun i => x i * s.scales (i.cast h), v)]) ∧
    (n ≠ m → s.evaluate x = .panic .dims) := by
  constructor
  · intro h
    subst h
    refine ⟨s.function.f s.function.log (fun i => x i * s.scales (i.cast rfl)),
      { s with function := (s.function.call fun i => x i * s.scales (i.cast rfl)).2 }, ?_, rfl,
      rfl, rfl, rfl⟩
    simp only [Scale.evaluate, Scale.scale, dif_pos]
    rfl
  · intro h
    simp only [Scale.evaluate, Scale.scale, dif_neg h]
    rfl

/-- Evaluations one after the other. -/
def Scale.evaluateAll (s : Scale n n F) : List (Vec n F) → Outcome (List F × Scale n n F)
  | [] => .ok ([], s)
  | x :: xs => do
    let (v, s) ← s.evaluate x
    let (vs, s) ← s.evaluateAll xs
    .ok (v :: vs, s)

/-- Calls of an objective one after the other. -/
def Obj.callAll (o : Obj n F) : List (Vec n F) → List F × Obj n F
  | [] => ([], o)
  | x :: xs =>
    let (v, o) := o.call x
    let (vs, o) := o.callAll xs
    (v :: vs, o)

theorem scale_sim (f : Obj n F) (scales : Vec n F) (xs : List (Vec n F)) :
    ∀ (s : Scale n n F) (o : Obj n F), s.scales = scales → s.function.f = f.f →
      o.f = (Scale.toObj f scales).f →
      s.function.log = f.log ++ o.log.map (fun e => (e.1.cmul scales, e.2)) →
      ∃ s', s.evaluateAll xs = .ok ((o.callAll xs).1, s') ∧ s'.function.f = f.f ∧
        s'.scales = scales ∧
        s'.function.log =
          f.log ++ (o.callAll xs).2.log.map (fun e => (e.1.cmul scales, e.2)) := by
  induction xs with
  | nil => exact fun s o h1 h2 h3 h4 => ⟨s, rfl, h2, h1, h4⟩
  | cons x xs ih =>
    intro s o h1 h2 h3 h4
    obtain ⟨v, s1, e1, e2, e3, e4, e5⟩ := (c49_evaluate s x).1 rfl
    have hv : v = (o.call x).1 := by
      rw [e2, h2, h4, h1]
      show _ = o.f o.log x
      rw [h3]
      rfl
    obtain ⟨s', k1, k2, k3, k4⟩ := ih s1 (o.call x).2 (e3.trans h1) (e4.trans h2) h3 (by
      show s1.function.log = _
      have : s1.function.log = s.function.log ++
        [((fun i => x i * s.scales (i.cast rfl)), v)] := e5
      rw [this, h4, hv, h1]
      simp only [Obj.call, List.map_append, List.map_cons, List.map_nil, List.append_assoc]
      rfl)
    refine ⟨s', ?_, k2, k3, k4⟩
    simp only [Scale.evaluateAll, e1, Outcome.ok_bind, k1]
    rw [hv]
    rfl

/-- **C49, as an objective.** A sequence of evaluations through `Scale` gives the values of the
objective `Scale.toObj`, and leaves the wrapped function as if it had been called at the scaled
points. -/
theorem c49_sequence (f : Obj n F) (scales : Vec n F) (xs : List (Vec n F)) :
    ∃ s', (Scale.mk f scales).evaluateAll xs = .ok (((Scale.toObj f scales).callAll xs).1, s') ∧
      s'.intoWrappedFunction.log = f.log ++
        ((Scale.toObj f scales).callAll xs).2.log.map (fun e => (e.1.cmul scales, e.2)) := by
  obtain ⟨s', h1, _, _, h2⟩ := scale_sim f scales xs ⟨f, scales⟩ (Scale.toObj f scales) rfl rfl rfl
    (by simp [Scale.toObj])
  exact ⟨s', h1, h2⟩

/-- **C49, the same search.** For a function `g` of the point alone, optimizing `Scale` of `g` is
optimizing `x ↦ g (x * scales)`: the objectives are equal, so everything is. -/
theorem c49_stateless (g : Vec n F → F) (scales : Vec n F) :
    Scale.toObj ⟨fun _ x => g x, []⟩ scales =
      ⟨fun _ x => g fun i => x i * scales i, []⟩ := rfl

/-- **C49, the wrapped function.** Whatever is done with a `CMAES` built on a `Scale`, the wrapped
function was called exactly at the scaled points of the calls of the search, in the same order, and
the values seen by the search are those it returned. -/
theorem c49_run {f : Obj n F} {scales : Vec n F}
    (h : History.Of env (Scale.toObj f scales) o t c) :
    Faithful f.f f.log ((allCalls t).map fun e => (fun i => e.1 i * scales i, e.2)) := by
  have hfa := (c01_calls_are_real h).2
  have key : ∀ (calls log : List (Vec n F × F)), Faithful (Scale.toObj f scales).f log calls →
      Faithful f.f (f.log ++ log.map fun e => (e.1.cmul scales, e.2))
        (calls.map fun e => (fun i => e.1 i * scales i, e.2)) := by
    intro calls
    induction calls with
    | nil => intro _ _; trivial
    | cons e calls ih =>
      intro log hh
      obtain ⟨x, v⟩ := e
      obtain ⟨h1, h2⟩ := hh
      refine ⟨h1, ?_⟩
      have := ih _ h2
      rw [List.map_append, ← List.append_assoc] at this
      exact this
  simpa [Scale.toObj] using key _ _ hfa

open Witness in
/-- A run on a scaled function, as in `c49_run`. -/
example : ∃ t c, History.Of (wenv 2) (Scale.toObj sphere (fun i => if i = 0 then 3 else 5)) opts
    t c ∧ c.generation = 2 := by
  obtain ⟨t, c, h, hp⟩ := exists_history (env := wenv 2)
    (obj := Scale.toObj sphere (fun i => if i = 0 then 3 else 5)) (o := opts) [.seq, .par]
    (fun c _ => decide (c.generation = 2)) opts_valid (by decide +kernel)
  exact ⟨t, c, h, of_decide_eq_true hp⟩

end Cmaes
