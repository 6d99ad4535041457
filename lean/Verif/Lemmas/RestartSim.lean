import Verif.Lemmas.Simulation
import Verif.Model.Restart

/-!
# Two restarters side by side
-/

set_option linter.unusedSectionVars false

namespace Cmaes
variable {n : Nat} {F R : Type} [Flt F]

/-- A way to compare two computations. -/
structure Relator where
  rel : ∀ {α β : Type}, (α → β → Prop) → Outcome α → Outcome β → Prop
  ok : ∀ {α β : Type} {P : α → β → Prop} {a : α} {b : β}, P a b → rel P (.ok a) (.ok b)
  panic : ∀ {α β : Type} {P : α → β → Prop} (p : Panic), rel P (.panic p) (.panic p)
  diverge : ∀ {α β : Type} {P : α → β → Prop}, rel P .diverge .diverge
  bind : ∀ {α β γ δ : Type} {P : α → β → Prop} {Q : γ → δ → Prop} {x : Outcome α} {y : Outcome β}
    {f : α → Outcome γ} {g : β → Outcome δ},
    rel P x y → (∀ a b, x = .ok a → y = .ok b → P a b → rel Q (f a) (g b)) → rel Q (x >>= f) (y >>= g)

/-- Same outcome. -/
def Relator.same : Relator where
  rel := Outcome.Rel
  ok := .ok
  panic := .panic
  diverge := .diverge
  bind := by
    intro α β γ δ P Q x y f g h hf
    cases h with
    | ok h => exact hf _ _ rfl rfl h
    | panic p => exact .panic p
    | diverge => exact .diverge

/-- Related values if both return one. -/
def Relator.both : Relator where
  rel P x y := ∀ a b, x = .ok a → y = .ok b → P a b
  ok := by rintro α β P a b h _ _ ⟨⟩ ⟨⟩; exact h
  panic := by rintro α β P p a b ⟨⟩
  diverge := by rintro α β P a b ⟨⟩
  bind := by
    intro α β γ δ P Q x y f g h hf a b ha hb
    rw [Outcome.bind_eq_ok] at ha hb
    obtain ⟨a1, h1, h2⟩ := ha
    obtain ⟨b1, h3, h4⟩ := hb
    exact hf a1 b1 h1 h3 (h a1 b1 h1 h3) a b h2 h4

theorem Relator.of_eq (T : Relator) {α : Type} {P : α → α → Prop} {x y : Outcome α} (h : y = x)
    (hP : ∀ a, x = .ok a → P a a) : T.rel P x y := by
  subst h
  cases y with
  | ok a => exact T.ok (hP a rfl)
  | panic p => exact T.panic p
  | diverge => exact T.diverge

/-- Building and running one `CMAES`, as the restarter does, `/repo/src/restart/mod.rs:316-374`. -/
def buildRun (env : Env n F R) (kind : EvalKind) (printing : Bool) (w : World n F) (obj : Obj n F)
    (o : Options n F) (k : Nat) : Outcome (CMAES n F R × TerminationData n F) :=
  match CMAES.new env w obj o with
  | .error _ => .panic .unwrap
  | .ok c => (if printing then c.printRunInfo k else c).run env kind

/-- The part of `oneRun` after the objective function is taken. -/
theorem oneRun_eq (env : Env n F R) (kind : EvalKind) (s : RestartState n F R) :
    s.oneRun env kind = (do
      let o := s.restarter.options
      let (mean, rng) ← generateInitialMean env.restartRng o.searchStart o.searchEnd s.restarter.rng
      let (seed, rng) := env.restartRng.u64 rng
      let (obj, s) ← s.takeObjective
      let (options, rng) ← s.restarter.strategy.configure env.restartRng (o.runOptions mean seed)
        (Flt.abs (o.searchEnd - o.searchStart)) rng
      let (c, d) ← buildRun env kind o.enablePrinting s.world obj options (s.runs + 1)
      let (strategy, control) ← s.restarter.strategy.finish c.functionEvals
      let s := { s with restarter := { s.restarter with rng, strategy }, world := c.world }
      let s := s.print (.runResults (s.runs + 1) (c.overallBestIndividual.map fun i => i.value)
        d.reasons c.functionEvals)
      let record : RunRecord n F R := { obj, options, final := c, data := d }
      .ok ({ s with
        functionEvals := s.functionEvals + c.functionEvals
        runs := s.runs + 1
        records := s.records ++ [record] }, record, control)) := by
  unfold RestartState.oneRun
  dsimp only
  congr 1
  funext x
  obtain ⟨mean, rng⟩ := x
  simp only
  congr 1
  funext x
  obtain ⟨obj, s1⟩ := x
  simp only
  congr 1
  funext x
  obtain ⟨options, rng'⟩ := x
  simp only [buildRun]
  cases CMAES.new env s1.world obj options with
  | error e => rfl
  | ok c => rfl

/-- An individual with its value transformed. -/
def Individual.mapValue (φ : F → F) (x : Individual n F) : Individual n F :=
  { x with value := φ x.value }

/-- What has to be known about two restarters to compare them. -/
structure RestartSim (env env' : Env n F R) (kind kind' : EvalKind) (ro ro' : RestartOptions n F)
    where
  T : Relator
  /-- the worlds -/
  WRel : World n F → World n F → Prop
  /-- the objective functions -/
  ORel : Obj n F → Obj n F → Prop
  /-- the calls made in a run -/
  LRel : List (Vec n F × F) → List (Vec n F × F) → Prop
  /-- how the values are transformed -/
  φ : F → F
  /-- how the best individuals are transformed -/
  ψ : Individual n F → Individual n F
  /-- how the initial means are transformed -/
  μ : Vec n F → Vec n F
  /-- the options of a run -/
  OptRel : Options n F → Options n F → Prop
  /-- the ends of two runs -/
  RunRel : CMAES n F R → TerminationData n F → CMAES n F R → TerminationData n F → Prop
  restartRng : env'.restartRng = env.restartRng
  restartFuel : env'.restartFuel = env.restartFuel
  ψ_value : ∀ x, (ψ x).value = φ x.value
  mean : ∀ r, T.rel (fun x y => y = (μ x.1, x.2))
    (generateInitialMean env.restartRng ro.searchStart ro.searchEnd r)
    (generateInitialMean env.restartRng ro'.searchStart ro'.searchEnd r)
  maxFunctionEvals : ro'.maxFunctionEvals = ro.maxFunctionEvals
  maxTime : ro'.maxTime = ro.maxTime
  configure : ∀ (s : Strategy F) mean seed r,
    T.rel (fun x y => OptRel x.1 y.1 ∧ y.2 = x.2)
      (s.configure env.restartRng (ro.runOptions mean seed)
        (Flt.abs (ro.searchEnd - ro.searchStart)) r)
      (s.configure env.restartRng (ro'.runOptions (μ mean) seed)
        (Flt.abs (ro'.searchEnd - ro'.searchStart)) r)
  now : ∀ w w', WRel w w' → WRel (w.now env).2 (w'.now env').2 ∧
    (ro.maxTime = none ∨ (w'.now env').1 = (w.now env).1)
  print_run : ∀ w w' k (b : Option F) l e, WRel w w' →
    WRel (if ro.enablePrinting then w.print (.runResults k b l e) else w)
      (if ro'.enablePrinting then w'.print (.runResults k (b.map φ) l e) else w')
  print_results : ∀ w w' e r (b : Option (Individual n F)), WRel w w' →
    WRel (if ro.enablePrinting then w.print (.restartResults e r b) else w)
      (if ro'.enablePrinting then
        w'.print (.restartResults e r (b.map ψ)) else w')
  run : ∀ w w' obj obj' o o' k, WRel w w' → ORel obj obj' → OptRel o o' →
    T.rel (fun x y => RunRel x.1 x.2 y.1 y.2) (buildRun env kind ro.enablePrinting w obj o k)
      (buildRun env' kind' ro'.enablePrinting w' obj' o' k)
  run_world : ∀ {c d c' d'}, RunRel c d c' d' → WRel c.world c'.world
  run_obj : ∀ {c d c' d'}, RunRel c d c' d' →
    ORel c.intoObjectiveFunction c'.intoObjectiveFunction
  run_log : ∀ {c d c' d'}, RunRel c d c' d' → LRel c.sampler.obj.log c'.sampler.obj.log
  run_evals : ∀ {c d c' d'}, RunRel c d c' d' → c'.functionEvals = c.functionEvals
  run_best : ∀ {c d c' d'}, RunRel c d c' d' →
    c'.overallBestIndividual = c.overallBestIndividual.map ψ
  run_reasons : ∀ {c d c' d'}, RunRel c d c' d' → d'.reasons = d.reasons
  better : ∀ a b, ro'.mode.isBetter (φ a) (φ b) = ro.mode.isBetter a b

namespace RestartSim
variable {env env' : Env n F R} {kind kind' : EvalKind} {ro ro' : RestartOptions n F}
  (S : RestartSim env env' kind kind' ro ro')

/-- Related sources of objective functions. -/
inductive SourceRel : ObjSource n F → ObjSource n F → Prop
  | factory {get get' : List (List (Vec n F × F)) → Obj n F}
    (h : ∀ l l', List.Forall₂ S.LRel l l' → S.ORel (get l) (get' l')) :
    SourceRel (.factory get) (.factory get')
  | once {f f' : Option (Obj n F)} (h : Option.Rel S.ORel f f') : SourceRel (.once f) (.once f')

/-- Related runs. -/
structure RecordRel (x x' : RunRecord n F R) : Prop where
  obj : S.ORel x.obj x'.obj
  options : S.OptRel x.options x'.options
  run : S.RunRel x.final x.data x'.final x'.data

/-- Related states of the loop. -/
structure StateRel (s s' : RestartState n F R) : Prop where
  options : s.restarter.options = ro
  options' : s'.restarter.options = ro'
  strategy : s'.restarter.strategy = s.restarter.strategy
  rng : s'.restarter.rng = s.restarter.rng
  best : s'.restarter.overallBest = s.restarter.overallBest.map S.ψ
  time : ro.maxTime = none ∨ s'.timeStarted = s.timeStarted
  functionEvals : s'.functionEvals = s.functionEvals
  runs : s'.runs = s.runs
  world : S.WRel s.world s'.world
  source : S.SourceRel s.source s'.source
  sourceCalls : s'.sourceCalls = s.sourceCalls
  stored : Option.Rel S.ORel s.stored s'.stored
  records : List.Forall₂ S.RecordRel s.records s'.records

variable {S} {s s' : RestartState n F R}

theorem takeObjective (h : S.StateRel s s') :
    S.T.rel (fun x y => S.ORel x.1 y.1 ∧ S.StateRel x.2 y.2 ∧ x.2.records = s.records ∧
      x.2.restarter = s.restarter) s.takeObjective s'.takeObjective := by
  unfold RestartState.takeObjective
  have hst := h.stored
  generalize ha : s.stored = a at hst
  generalize hb : s'.stored = b at hst
  cases hst with
  | some ho =>
    exact S.T.ok ⟨ho, ⟨h.1, h.2, h.3, h.4, h.5, h.6, h.7, h.8, h.9, h.10, h.11, .none, h.13⟩, rfl,
      rfl⟩
  | none =>
    have hl : List.Forall₂ S.LRel (s.records.map fun r => r.final.sampler.obj.log)
        (s'.records.map fun r => r.final.sampler.obj.log) := by
      rw [List.forall₂_map_left_iff, List.forall₂_map_right_iff]
      exact h.records.imp fun x y hxy => S.run_log hxy.run
    have hsrc := h.source
    generalize hc : s.source = sa at hsrc
    generalize hd : s'.source = sb at hsrc
    cases hsrc with
    | factory hf =>
      refine S.T.ok ⟨hf _ _ hl, ⟨h.1, h.2, h.3, h.4, h.5, h.6, h.7, h.8, h.9, .factory hf, ?_, ?_,
        h.13⟩, rfl, rfl⟩
      · simp only [h.sourceCalls]
      · simp only [ha, hb]; exact .none
    | once hf =>
      cases hf with
      | none => exact S.T.panic _
      | some ho =>
        refine S.T.ok ⟨ho, ⟨h.1, h.2, h.3, h.4, h.5, h.6, h.7, h.8, h.9, .once .none, ?_, ?_,
          h.13⟩, rfl, rfl⟩
        · simp only [h.sourceCalls]
        · simp only [ha, hb]; exact .none

theorem oneRun (h : S.StateRel s s') :
    S.T.rel (fun x y => S.StateRel x.1 y.1 ∧ S.RecordRel x.2.1 y.2.1 ∧ y.2.2 = x.2.2)
      (s.oneRun env kind) (s'.oneRun env' kind') := by
  rw [oneRun_eq, oneRun_eq]
  simp only [h.options, h.options', S.restartRng, h.rng]
  refine S.T.bind (S.mean _) ?_
  rintro ⟨mean, rng⟩ _ _ _ rfl
  simp only
  refine S.T.bind (takeObjective h) ?_
  rintro ⟨obj, s1⟩ ⟨obj', s1'⟩ _ _ ⟨ho, h1, _, _⟩
  simp only at ho h1 ⊢
  rw [h1.strategy]
  refine S.T.bind (S.configure _ _ _ _) ?_
  rintro ⟨o, rng'⟩ ⟨o', _⟩ _ _ ⟨hopt, rfl⟩
  simp only at hopt ⊢
  rw [h1.runs]
  refine S.T.bind (S.run _ _ _ _ _ _ _ h1.world ho hopt) ?_
  rintro ⟨c, d⟩ ⟨c', d'⟩ _ _ hr
  simp only at hr ⊢
  rw [S.run_evals hr]
  refine S.T.bind (S.T.of_eq (P := Eq) rfl fun _ _ => rfl) ?_
  rintro ⟨st, control⟩ _ _ _ rfl
  have hrec : S.RecordRel ⟨obj, o, c, d⟩ ⟨obj', o', c', d'⟩ := ⟨ho, hopt, hr⟩
  refine S.T.ok ⟨?_, hrec, rfl⟩
  have hprint := S.print_run c.world c'.world (s1.runs + 1)
    (c.overallBestIndividual.map fun i => i.value) d.reasons c.functionEvals (S.run_world hr)
  have hb : c'.overallBestIndividual.map (fun i => i.value) =
      (c.overallBestIndividual.map fun i => i.value).map S.φ := by
    rw [S.run_best hr]
    cases c.overallBestIndividual with
    | none => rfl
    | some b => simp only [Option.map_some, S.ψ_value]
  simp only [RestartState.print, h1.options, h1.options', hb, S.run_reasons hr, h1.runs]
  refine ⟨?_, ?_, ?_, ?_, ?_, ?_, ?_, ?_, ?_, ?_, ?_, ?_, ?_⟩
  · split <;> first | rfl | exact h1.options
  · split <;> first | rfl | exact h1.options'
  · split <;> split <;> rfl
  · split <;> split <;> rfl
  · split <;> split <;> exact h1.best
  · split <;> split <;> exact h1.time
  · split <;> split <;> simp only [h1.functionEvals]
  · split <;> split <;> rfl
  · cases e1 : ro.enablePrinting <;> cases e2 : ro'.enablePrinting <;>
      simp only [e1, e2, if_true, Bool.false_eq_true, if_false] at hprint ⊢ <;> exact hprint
  · split <;> split <;> exact h1.source
  · split <;> split <;> exact h1.sourceCalls
  · split <;> split <;> exact h1.stored
  · split <;> split <;>
      exact List.rel_append h1.records (.cons hrec .nil)

/-- The check of the time limit. -/
def timeCheck (env : Env n F R) (m : Option Nat) (s : RestartState n F R) :
    Option RestartTerminationReason × RestartState n F R :=
  match m with
  | none => (none, s)
  | some m =>
    let (now, w) := s.world.now env
    let s := { s with world := w }
    if m ≤ now - s.timeStarted then (some .maxTime, s) else (none, s)

theorem timeCheck_rel (h : S.StateRel s s') :
    (timeCheck env' ro.maxTime s').1 = (timeCheck env ro.maxTime s).1 ∧
      S.StateRel (timeCheck env ro.maxTime s).2 (timeCheck env' ro.maxTime s').2 := by
  unfold timeCheck
  obtain ⟨hw, ht⟩ := S.now _ _ h.world
  have htime := h.time
  cases hmt : ro.maxTime with
  | none => exact ⟨rfl, h⟩
  | some m =>
    have ht := ht.resolve_left (by rw [hmt]; simp)
    have htime := htime.resolve_left (by rw [hmt]; simp)
    simp only
    rw [ht]
    have hst : S.StateRel { s with world := (World.now env s.world).2 }
        { s' with world := (World.now env' s'.world).2 } :=
      ⟨h.1, h.2, h.3, h.4, h.5, h.6, h.7, h.8, hw, h.10, h.11, h.12, h.13⟩
    by_cases hle : m ≤ (World.now env s.world).1 - s.timeStarted
    · have hle' : m ≤ (World.now env s.world).1 - s'.timeStarted := by rw [htime]; exact hle
      simp only [hle, hle', ↓reduceIte]; exact ⟨trivial, hst⟩
    · have hle' : ¬ m ≤ (World.now env s.world).1 - s'.timeStarted := by rw [htime]; exact hle
      simp only [hle, hle', ↓reduceIte]; exact ⟨trivial, hst⟩

theorem precheck (h : S.StateRel s s') : (s'.precheck env').1 = (s.precheck env).1 ∧
    S.StateRel (s.precheck env).2 (s'.precheck env').2 := by
  unfold RestartState.precheck
  rw [h.strategy, h.options, h.options', S.maxFunctionEvals, S.maxTime]
  by_cases hz : s.restarter.strategy.hasZeroMaxRuns = true
  · rw [if_pos hz, if_pos hz]; exact ⟨rfl, h⟩
  · rw [if_neg hz, if_neg hz]
    cases ro.maxFunctionEvals with
    | none => exact timeCheck_rel h
    | some m =>
      by_cases hm : m ≤ s.functionEvals
      · have hm' : m ≤ s'.functionEvals := by rw [h.functionEvals]; exact hm
        simp only [hm, hm', decide_true, if_true]
        exact ⟨trivial, h⟩
      · have hm' : ¬ m ≤ s'.functionEvals := by rw [h.functionEvals]; exact hm
        simp only [hm, hm', decide_false, Bool.false_eq_true, if_false]
        exact timeCheck_rel h

theorem updateBest (best : Option (Individual n F)) (x : Individual n F) :
    updateBestIndividual ro'.mode (best.map S.ψ) (S.ψ x) =
      (updateBestIndividual ro.mode best x).map S.ψ := by
  cases best with
  | none => rfl
  | some b =>
    simp only [updateBestIndividual, Option.map_some, S.ψ_value, S.better]
    split <;> rfl

theorem postcheck {x x' : RunRecord n F R} (control : RestartControl) (h : S.StateRel s s')
    (hx : S.RecordRel x x') :
    (s'.postcheck x' control).1 = (s.postcheck x control).1 ∧
      S.StateRel (s.postcheck x control).2 (s'.postcheck x' control).2 := by
  unfold RestartState.postcheck
  rw [S.run_reasons hx.run, S.run_best hx.run]
  by_cases hn : (x.data.reasons.any (· == .invalidFunctionValue)) = true
  · simp only [hn, if_true]; exact ⟨trivial, h⟩
  · simp only [hn, if_false, Bool.false_eq_true]
    have key : ∀ {a a' : RestartState n F R}, S.StateRel a a' →
        (if (x.data.reasons.any (· == .funTarget)) = true then
            (some RestartTerminationReason.funTarget, a')
          else match control with
            | .continue => (none, a')
            | .maxRunsReached => (some .maxRuns, a')).1 =
          (if (x.data.reasons.any (· == .funTarget)) = true then (some .funTarget, a)
          else match control with
            | .continue => (none, a)
            | .maxRunsReached => (some .maxRuns, a)).1 ∧
        S.StateRel (if (x.data.reasons.any (· == .funTarget)) = true then
            (some RestartTerminationReason.funTarget, a)
          else match control with
            | .continue => (none, a)
            | .maxRunsReached => (some .maxRuns, a)).2
          (if (x.data.reasons.any (· == .funTarget)) = true then
            (some RestartTerminationReason.funTarget, a')
          else match control with
            | .continue => (none, a')
            | .maxRunsReached => (some .maxRuns, a')).2 := by
      intro a a' ha
      split
      · exact ⟨rfl, ha⟩
      · cases control <;> exact ⟨rfl, ha⟩
    cases hb : x.final.overallBestIndividual with
    | none => exact key h
    | some b =>
      simp only [Option.map_some]
      refine key ⟨h.1, h.2, h.3, h.4, ?_, h.6, h.7, h.8, h.9, h.10, h.11, h.12, h.13⟩
      simp only [h.options, h.options', h.best, updateBest]

theorem store {reuse : Bool} {x x' : RunRecord n F R} (h : S.StateRel s s')
    (hx : S.RecordRel x x') : S.StateRel (s.store reuse x) (s'.store reuse x') := by
  unfold RestartState.store
  split
  · exact ⟨h.1, h.2, h.3, h.4, h.5, h.6, h.7, h.8, h.9, h.10, h.11, .some (S.run_obj hx.run), h.13⟩
  · exact h

theorem loop {reuse : Bool} (fuel : Nat) (h : S.StateRel s s') :
    S.T.rel (fun x y => y.1 = x.1 ∧ S.StateRel x.2 y.2) (s.loop env kind reuse fuel)
      (s'.loop env' kind' reuse fuel) := by
  induction fuel generalizing s s' with
  | zero => exact S.T.diverge
  | succ fuel ih =>
    simp only [RestartState.loop]
    obtain ⟨h1, h2⟩ := precheck h
    generalize s.precheck env = p at h1 h2
    generalize s'.precheck env' = p' at h1 h2
    obtain ⟨a, t⟩ := p
    obtain ⟨a', t'⟩ := p'
    simp only at h1 h2
    subst h1
    cases a' with
    | some r => exact S.T.ok ⟨rfl, h2⟩
    | none =>
      simp only
      refine S.T.bind (oneRun h2) ?_
      rintro ⟨u, x, ctl⟩ ⟨u', x', ctl'⟩ _ _ ⟨h3, h4, h5⟩
      simp only at h3 h4 h5 ⊢
      subst h5
      obtain ⟨h6, h7⟩ := postcheck ctl' h3 h4
      generalize u.postcheck x ctl' = q at h6 h7
      generalize u'.postcheck x' ctl' = q' at h6 h7
      obtain ⟨b, v⟩ := q
      obtain ⟨b', v'⟩ := q'
      simp only at h6 h7
      subst h6
      cases b' with
      | some r => exact S.T.ok ⟨rfl, h7⟩
      | none => exact ih (store h7 h4)

/-- The same results with a transformed best individual. -/
def mapResults (ψ : Individual n F → Individual n F) (r : RestartResults n F) :
    RestartResults n F :=
  { r with best := r.best.map ψ }

theorem runInternal {reuse : Bool} {r r' : Restarter n F R} {src src' : ObjSource n F}
    (h : S.StateRel (r.start env src) (r'.start env' src')) :
    S.T.rel (fun x y => y.1 = mapResults S.ψ x.1 ∧ S.StateRel x.2 y.2)
      (r.runInternal env kind src reuse) (r'.runInternal env' kind' src' reuse) := by
  unfold Restarter.runInternal
  rw [S.restartFuel]
  refine S.T.bind (loop _ h) ?_
  rintro ⟨a, t⟩ ⟨a', t'⟩ _ _ ⟨h1, h2⟩
  simp only at h1 h2 ⊢
  subst h1
  have hp := S.print_results t.world t'.world t.functionEvals a' t.restarter.overallBest h2.world
  refine S.T.ok ⟨?_, ?_⟩
  · simp only [mapResults, h2.best, h2.functionEvals, h2.runs]
  · simp only [RestartState.print, h2.options, h2.options', h2.best, h2.functionEvals]
    refine ⟨?_, ?_, ?_, ?_, ?_, ?_, ?_, ?_, ?_, ?_, ?_, ?_, ?_⟩
    · split <;> first | rfl | exact h2.options
    · split <;> first | rfl | exact h2.options'
    · split <;> split <;> exact h2.strategy
    · split <;> split <;> exact h2.rng
    · split <;> split <;> exact h2.best
    · split <;> split <;> exact h2.time
    · split <;> split <;> first | rfl | exact h2.functionEvals
    · split <;> split <;> exact h2.runs
    · cases e1 : ro.enablePrinting <;> cases e2 : ro'.enablePrinting <;>
        simp only [e1, e2, if_true, Bool.false_eq_true, if_false] at hp ⊢ <;> exact hp
    · split <;> split <;> exact h2.source
    · split <;> split <;> exact h2.sourceCalls
    · split <;> split <;> exact h2.stored
    · split <;> split <;> exact h2.records

end RestartSim

end Cmaes
