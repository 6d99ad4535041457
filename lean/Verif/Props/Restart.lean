import Verif.Lemmas.Restart
import Verif.Props.Best
import Verif.Props.Termination
import Verif.Props.Build
import Verif.Witness

/-!
# Restarts: totals, the best individual, limits and the reported reason
(C50, C51, C56, C57)
-/

set_option linter.unusedSectionVars false

namespace Cmaes
variable {n : Nat} {F R : Type} [Flt F] [FltLaws F]
variable {env : Env n F R} {kind : EvalKind} {reuse : Bool} {src : ObjSource n F}
  {o : RestartOptions n F} {r : Restarter n F R} {res : RestartResults n F}
  {s : RestartState n F R}

/-! ### Single runs -/

/-- A recorded run is a history of `next` calls, of which only the last returned something. -/
theorem RunRecord.Real.history {x : RunRecord n F R} (h : x.Real env kind) :
    ∃ t l, History.Of env x.obj x.options (t ++ [l]) x.final ∧ l.result = some x.data ∧
      l.kind = kind ∧ Unfinished kind t := by
  obtain ⟨w, c0, c1, h0, h1, hr⟩ := h
  obtain ⟨t, l, he, hk, hd, hu⟩ := run_ok hr
  refine ⟨t, l, ⟨w, c0, h0, ?_⟩, hd, hk, hu⟩
  rcases h1 with rfl | ⟨k, rfl⟩
  · exact he
  · have : Exec env c0 [] (c0.printRunInfo k) :=
      .quiet (op := .printRunInfo k) (.refl c0) trivial rfl
    simpa using this.trans he

/-- A run that was not stopped by a NaN has an overall best individual, which is not NaN, and used
at least one generation's evaluations. -/
theorem RunRecord.Real.best {x : RunRecord n F R} (h : x.Real env kind) (hv : ¬ x.Invalid) :
    (∃ b, x.final.overallBestIndividual = some b ∧ Flt.isNaN b.value = false) ∧
      2 ≤ x.options.populationSize ∧ x.options.populationSize ≤ x.evals := by
  obtain ⟨t, l, ht, hd, _, _⟩ := h.history
  have hl : ¬ l.Failed := by
    rintro ⟨d, h1, h2⟩
    rw [hd] at h1
    injection h1 with h1
    subst h1
    exact hv h2
  have hsome := (c03_presence ht).2.mpr ⟨l, by simp, hl⟩
  obtain ⟨b, hb⟩ := Option.isSome_iff_exists.mp hsome
  have h6 := (c06_generations ht).1
  have h2 : 2 ≤ x.options.populationSize := by
    obtain ⟨w, c0, h0, _⟩ := ht
    exact ((c30_valid_iff env w x.obj x.options).mp ⟨c0, h0⟩).2.1
  refine ⟨⟨b, hb, (c01_overall_best ht hb).1⟩, h2, ?_⟩
  show _ ≤ x.final.functionEvals
  rw [h6]
  apply Nat.le_mul_of_pos_right
  apply List.length_pos_of_mem (a := l)
  simp [hl]

/-! ### C50 -/

/-- **C50.** `runs` is the number of runs performed and `function_evals` is the sum of their
`function_evals()`; every one of them is a real run. -/
theorem c50_totals (h : r.runInternal env kind src reuse = .ok (res, s)) :
    res.runs = s.records.length ∧
    res.functionEvals = (s.records.map fun x => x.final.functionEvals).sum ∧
    ∀ x ∈ s.records, x.Real env kind := by
  obtain ⟨h1, h2, h3, s1, hh, hc⟩ := runInternal_ok h
  obtain ⟨b1, b2, b3, b4⟩ := hh.basic
  rcases hc with ⟨e1, e2, e3, _⟩ | ⟨s2, rec, control, rs, e1, e2, e3, _⟩
  · rw [h1, h2, e1, e2, e3]
    exact ⟨b3, b2, fun x hx => (b4 x hx).1⟩
  · rw [h1, h2, e1, e2, e3, rs.records, rs.evals, rs.runs]
    refine ⟨by rw [b3]; simp, by rw [b2]; simp [totalEvals, RunRecord.evals]; rfl, ?_⟩
    intro x hx
    rw [List.mem_append, List.mem_singleton] at hx
    rcases hx with hx | rfl
    · exact (b4 x hx).1
    · exact rs.real

/-! ### C59 -/

theorem Threaded.snoc {obj : Obj n F} {rs : List (RunRecord n F R)} {x : RunRecord n F R} :
    Threaded obj (rs ++ [x]) ↔ Threaded obj rs ∧ x.obj = objectiveAfter obj rs := by
  induction rs generalizing obj with
  | nil => simp [Threaded, objectiveAfter]
  | cons y rs ih =>
    simp only [List.cons_append, Threaded, ih, and_assoc]
    have : objectiveAfter y.final.intoObjectiveFunction rs = objectiveAfter obj (y :: rs) := by
      unfold objectiveAfter
      cases hrs : rs.getLast? with
      | none =>
        rw [List.getLast?_eq_none_iff] at hrs
        subst hrs
        rfl
      | some z => rw [List.getLast?_cons, hrs]; rfl
    rw [this]

theorem objectiveAfter_snoc {obj : Obj n F} {rs : List (RunRecord n F R)} {x : RunRecord n F R} :
    objectiveAfter obj (rs ++ [x]) = x.final.intoObjectiveFunction := by
  simp [objectiveAfter]

theorem heads_reuse {obj : Obj n F} (h : Heads env kind true (r.start env (.once (some obj))) s) :
    Threaded obj s.records ∧
    ((s.records = [] ∧ s.stored = none ∧ s.source = .once (some obj) ∧ s.sourceCalls = 0) ∨
     (s.records ≠ [] ∧ s.stored = some (objectiveAfter obj s.records) ∧ s.sourceCalls = 1)) := by
  refine h.ind (P := fun s => Threaded obj s.records ∧
    ((s.records = [] ∧ s.stored = none ∧ s.source = .once (some obj) ∧ s.sourceCalls = 0) ∨
     (s.records ≠ [] ∧ s.stored = some (objectiveAfter obj s.records) ∧ s.sourceCalls = 1))) ?_ ?_
  · exact ⟨trivial, .inl ⟨rfl, rfl, rfl, rfl⟩⟩
  · rintro s s' rec _ ⟨h1, h2⟩ p
    obtain ⟨s1, a1, a2, a3, a4⟩ := p.obj
    rw [p.records, Threaded.snoc, objectiveAfter_snoc, a4, a3]
    unfold RestartState.takeObjective at a1
    rcases h2 with ⟨b1, b2, b3, b4⟩ | ⟨b1, b2, b3⟩
    · rw [b2, b3] at a1
      simp only [ObjSource.call, Outcome.ok_bind, Outcome.ok.injEq, Prod.mk.injEq] at a1
      obtain ⟨rfl, rfl⟩ := a1
      refine ⟨⟨h1, by rw [b1]; rfl⟩, .inr ⟨by simp, rfl, by simp [b4]⟩⟩
    · rw [b2] at a1
      simp only [Outcome.ok.injEq, Prod.mk.injEq] at a1
      obtain ⟨ho, rfl⟩ := a1
      exact ⟨⟨h1, ho.symm⟩, .inr ⟨by simp, rfl, b3⟩⟩

theorem heads_factory {get : List (List (Vec n F × F)) → Obj n F}
    (h : Heads env kind false (r.start env (.factory get)) s) :
    s.stored = none ∧ s.source = .factory get ∧ s.sourceCalls = s.records.length ∧
    ∀ pre x post, s.records = pre ++ x :: post →
      x.obj = get (pre.map fun y => y.final.intoObjectiveFunction.log) := by
  refine h.ind (P := fun s => s.stored = none ∧ s.source = .factory get ∧
    s.sourceCalls = s.records.length ∧ ∀ pre x post, s.records = pre ++ x :: post →
      x.obj = get (pre.map fun y => y.final.intoObjectiveFunction.log)) ?_ ?_
  · exact ⟨rfl, rfl, rfl, by simp [Restarter.start]⟩
  · rintro s s' rec _ ⟨h1, h2, h3, h4⟩ p
    obtain ⟨s1, a1, a2, a3, a4⟩ := p.obj
    unfold RestartState.takeObjective at a1
    rw [h1, h2] at a1
    simp only [ObjSource.call, Outcome.ok_bind, Outcome.ok.injEq, Prod.mk.injEq] at a1
    obtain ⟨ho, rfl⟩ := a1
    refine ⟨by rw [a4]; rfl, a2, by rw [a3, p.records]; simp [h3], ?_⟩
    intro pre x post hs
    rw [p.records] at hs
    rcases snoc_split hs with ⟨_, rfl, rfl⟩ | ⟨post', _, hs'⟩
    · exact ho.symm
    · exact h4 pre x post' hs'

/-- **C59, reuse.** `run_with_reuse` passes the one objective function on from run to run, with all
the calls made to it, and takes it from the caller at most once. -/
theorem c59_reuse {obj : Obj n F} (h : r.runWithReuse env kind obj = .ok (res, s)) :
    Threaded obj s.records ∧ s.sourceCalls = min 1 s.records.length := by
  obtain ⟨_, _, _, s1, hh, hc⟩ := runInternal_ok h
  obtain ⟨b1, b2⟩ := heads_reuse hh
  rcases hc with ⟨e1, _, _, _, e4, _⟩ | ⟨s2, rec, control, rs, e1, _, _, _, e4, _⟩
  · rw [e1, e4]
    refine ⟨b1, ?_⟩
    rcases b2 with ⟨c1, _, _, c2⟩ | ⟨c1, _, c2⟩
    · rw [c2, c1]; rfl
    · have := List.length_pos_iff.mpr c1
      omega
  · rw [e1, e4, rs.records, Threaded.snoc]
    obtain ⟨s1', a1, a2, a3, a4⟩ := rs.obj
    unfold RestartState.takeObjective at a1
    rcases b2 with ⟨c1, c2, c3, c4⟩ | ⟨c1, c2, c3⟩
    · rw [c2, c3] at a1
      simp only [ObjSource.call, Outcome.ok_bind, Outcome.ok.injEq, Prod.mk.injEq] at a1
      obtain ⟨ho, rfl⟩ := a1
      refine ⟨⟨b1, by rw [c1]; exact ho.symm⟩, ?_⟩
      rw [a3, c1]
      simp [c4]
    · rw [c2] at a1
      simp only [Outcome.ok.injEq, Prod.mk.injEq] at a1
      obtain ⟨ho, rfl⟩ := a1
      refine ⟨⟨b1, ho.symm⟩, ?_⟩
      rw [a3]
      simp [c3]

/-- **C59, no panic.** Whenever a run starts, `run_with_reuse` has the objective function: the
`take().unwrap()` never panics. -/
theorem c59_no_panic {obj : Obj n F} {s1 : RestartState n F R}
    (h : Heads env kind true (r.start env (.once (some obj))) s)
    (hp : s.precheck env = (none, s1)) : ∃ x, s1.takeObjective = .ok x := by
  obtain ⟨_, _, _, w, rfl, _⟩ := precheck_none hp
  obtain ⟨_, b⟩ := heads_reuse h
  unfold RestartState.takeObjective
  rcases b with ⟨_, c2, c3, _⟩ | ⟨_, c2, _⟩
  · simp only [c2, c3, ObjSource.call, Outcome.ok_bind]
    exact ⟨_, rfl⟩
  · simp only [c2]
    exact ⟨_, rfl⟩

/-- **C59, factory.** `run` calls the factory exactly once for each run, when the run starts, and
the run uses what it returned. -/
theorem c59_factory {get : List (List (Vec n F × F)) → Obj n F}
    (h : r.run env kind get = .ok (res, s)) :
    s.sourceCalls = s.records.length ∧ s.sourceCalls = res.runs ∧
    ∀ pre x post, s.records = pre ++ x :: post →
      x.obj = get (pre.map fun y => y.final.intoObjectiveFunction.log) := by
  have ht := (c50_totals h).1
  rw [ht]
  obtain ⟨_, _, _, s1, hh, hc⟩ := runInternal_ok h
  obtain ⟨b1, b2, b3, b4⟩ := heads_factory hh
  rcases hc with ⟨e1, _, _, _, e4, _⟩ | ⟨s2, rec, control, rs, e1, _, _, _, e4, _⟩
  · rw [e1, e4]
    exact ⟨b3, b3, b4⟩
  · obtain ⟨s1', a1, a2, a3, a4⟩ := rs.obj
    unfold RestartState.takeObjective at a1
    rw [b1, b2] at a1
    simp only [ObjSource.call, Outcome.ok_bind, Outcome.ok.injEq, Prod.mk.injEq] at a1
    obtain ⟨ho, rfl⟩ := a1
    rw [e1, e4, rs.records, a3]
    refine ⟨by simp [b3], by simp [b3], ?_⟩
    intro pre x post hs
    rcases snoc_split hs with ⟨_, rfl, rfl⟩ | ⟨post', _, hs'⟩
    · exact ho.symm
    · exact b4 pre x post' hs'

/-! ### C50, the calls to a reused objective function -/

theorem calls_of_threaded {obj : Obj n F} {rs : List (RunRecord n F R)} (h : Threaded obj rs)
    (hr : ∀ x ∈ rs, x.Real env kind) :
    ∃ calls, (objectiveAfter obj rs).log = obj.log ++ calls ∧
      Faithful obj.f obj.log calls ∧
      totalEvals rs ≤ calls.length ∧
      (totalEvals rs = calls.length ↔ ∀ e ∈ calls, Flt.isNaN e.2 = false) := by
  induction rs generalizing obj with
  | nil => exact ⟨[], by simp [objectiveAfter], trivial, by simp [totalEvals], by simp [totalEvals]⟩
  | cons x rs ih =>
    obtain ⟨rfl, h2⟩ := h
    obtain ⟨t, l, ht, _⟩ := (hr x (by simp)).history
    obtain ⟨calls, c1, c2, c3, c4⟩ := ih h2 fun y hy => hr y (List.mem_cons_of_mem _ hy)
    obtain ⟨d1, d2⟩ := c01_calls_are_real ht
    have d3 := c05_le ht
    have d4 := c05_function_evals_partial ht
    have df : x.final.sampler.obj.f = x.obj.f := by
      obtain ⟨w, c0, h0, he⟩ := ht
      obtain ⟨_, i⟩ := exec_inv he
      exact i.config.f.trans (congrArg Obj.f (c31_fresh h0).2.2.2.2.2.2.2.2.2)
    have ea : objectiveAfter x.obj (x :: rs) = objectiveAfter x.final.intoObjectiveFunction rs := by
      unfold objectiveAfter
      cases hrs : rs.getLast? with
      | none =>
        rw [List.getLast?_eq_none_iff] at hrs
        subst hrs
        rfl
      | some z => rw [List.getLast?_cons, hrs]; rfl
    have et : totalEvals (x :: rs) = x.final.functionEvals + totalEvals rs := by
      simp [totalEvals, RunRecord.evals]
    refine ⟨allCalls (t ++ [l]) ++ calls, ?_, ?_, ?_, ?_⟩
    · rw [ea, c1, d1, List.append_assoc]
    · refine d2.append ?_
      rw [← d1, ← df]
      exact c2
    · rw [et, List.length_append]
      omega
    · rw [et, List.length_append]
      constructor
      · intro he e hm
        rcases List.mem_append.mp hm with hm | hm
        · exact d4.mp (by omega) e hm
        · exact c4.mp (by omega) e hm
      · intro ha
        rw [d4.mpr fun e he => ha e (List.mem_append_left _ he),
          c4.mpr fun e he => ha e (List.mem_append_right _ he)]

/-- **C50, with a reused objective function.** `function_evals` never exceeds the number of calls
made to the objective function, and equals it exactly if none of them returned NaN. -/
theorem c50_reuse_partial {obj : Obj n F} (h : r.runWithReuse env kind obj = .ok (res, s)) :
    ∃ calls, (objectiveAfter obj s.records).log = obj.log ++ calls ∧
      Faithful obj.f obj.log calls ∧ res.functionEvals ≤ calls.length ∧
      (res.functionEvals = calls.length ↔ ∀ e ∈ calls, Flt.isNaN e.2 = false) := by
  obtain ⟨_, h2, h3⟩ := c50_totals h
  have := calls_of_threaded (c59_reuse h).1 h3
  have e : res.functionEvals = totalEvals s.records := h2
  rw [e]
  exact this

/-! ### C51 -/

theorem isBetter_iff_better {m : Mode} {a b : F} : m.isBetter a b = true ↔ Better m a b := by
  cases m <;> exact Iff.rfl

/-- `b` is the best individual of the list `rs` of runs, the earliest if there are several. -/
structure EarliestBest (mode : Mode) (rs : List (RunRecord n F R)) (b : Individual n F) : Prop where
  notNaN : Flt.isNaN b.value = false
  split : ∃ pre x post, rs = pre ++ x :: post ∧ x.final.overallBestIndividual = some b ∧
    (∀ y ∈ pre, ∃ c, y.final.overallBestIndividual = some c ∧ Better mode b.value c.value) ∧
    (∀ y ∈ post, ∃ c, y.final.overallBestIndividual = some c ∧ Flt.isNaN c.value = false ∧
      ¬ Better mode c.value b.value)

theorem bestAfter_earliest {mode : Mode} {rs : List (RunRecord n F R)} {x : RunRecord n F R}
    {best : Option (Individual n F)} (h0 : best = none ↔ rs = [])
    (h1 : ∀ b, best = some b → EarliestBest mode rs b)
    (hx : ∃ b, x.final.overallBestIndividual = some b ∧ Flt.isNaN b.value = false) :
    (bestAfter mode best x = none ↔ rs ++ [x] = []) ∧
    ∀ b, bestAfter mode best x = some b → EarliestBest mode (rs ++ [x]) b := by
  obtain ⟨b, hb, hn⟩ := hx
  unfold bestAfter updateBestIndividual
  rw [hb]
  cases best with
  | none =>
    obtain rfl := h0.mp rfl
    simp only [reduceCtorEq, List.nil_append, List.cons_ne_self, false_iff, not_false_eq_true,
      Option.some.injEq, forall_eq']
    exact ⟨by simp, hn, [], x, [], rfl, hb, by simp, by simp⟩
  | some c =>
    obtain ⟨hcn, pre, y, post, e, hy, h2, h3⟩ := h1 c rfl
    simp only
    by_cases hbet : mode.isBetter b.value c.value = true
    · rw [if_pos hbet]
      refine ⟨by simp, ?_⟩
      intro b' hb'
      injection hb' with hb'
      subst hb'
      have hlt := (Mode.isBetter_iff.mp hbet).2.2
      refine ⟨hn, rs, x, [], rfl, hb, ?_, by simp⟩
      intro z hz
      rw [e, List.mem_append, List.mem_cons] at hz
      rcases hz with hz | rfl | hz
      · obtain ⟨d, hd, hbd⟩ := h2 z hz
        have := Mode.isBetter_iff.mp (isBetter_iff_better.mpr hbd)
        exact ⟨d, hd, isBetter_iff_better.mp (Mode.isBetter_iff.mpr
          ⟨hn, this.2.1, hlt.trans this.2.2⟩)⟩
      · exact ⟨c, hy, isBetter_iff_better.mp hbet⟩
      · obtain ⟨d, hd, hdn, hbd⟩ := h3 z hz
        have h5 : mode.isBetter d.value c.value = false := by
          rw [← Bool.not_eq_true, isBetter_iff_better]; exact hbd
        have := (Mode.not_isBetter_iff hdn hcn).mp h5
        exact ⟨d, hd, isBetter_iff_better.mp (Mode.isBetter_iff.mpr
          ⟨hn, hdn, lt_of_lt_of_le hlt this⟩)⟩
    · rw [if_neg hbet]
      refine ⟨by simp, ?_⟩
      intro b' hb'
      injection hb' with hb'
      subst hb'
      refine ⟨hcn, pre, y, post ++ [x], by rw [e]; simp, hy, h2, ?_⟩
      intro z hz
      rw [List.mem_append, List.mem_singleton] at hz
      rcases hz with hz | rfl
      · exact h3 z hz
      · exact ⟨b, hb, hn, fun h => hbet (isBetter_iff_better.mpr h)⟩

theorem heads_best (hnone : r.overallBest = none)
    (h : Heads env kind reuse (r.start env src) s) :
    (s.restarter.overallBest = none ↔ s.records = []) ∧
    ∀ b, s.restarter.overallBest = some b → EarliestBest r.options.mode s.records b := by
  refine h.ind (P := fun s => (s.restarter.overallBest = none ↔ s.records = []) ∧
    ∀ b, s.restarter.overallBest = some b → EarliestBest r.options.mode s.records b) ?_ ?_
  · refine ⟨by simp [Restarter.start, hnone], ?_⟩
    intro b hb
    simp [Restarter.start, hnone] at hb
  · rintro s s' rec hh ⟨h1, h2⟩ p
    rw [p.best, p.records, (hh.basic).1]
    exact bestAfter_earliest h1 h2 (p.real.best p.valid).1

/-- **C51.** `best` is the best of the overall best individuals of the runs that did not end with
`InvalidFunctionValue`, the earliest one among equals; it is `None` exactly if there are no such
runs. -/
theorem c51_best_partial (h0 : Restarter.new env o = .ok r)
    (h : r.runInternal env kind src reuse = .ok (res, s)) :
    (res.best = none ↔ (s.records.filter fun x => ¬ x.Invalid) = []) ∧
    ∀ b, res.best = some b → EarliestBest o.mode (s.records.filter fun x => ¬ x.Invalid) b := by
  obtain ⟨hro, _, hrb, _⟩ := restarter_new h0
  obtain ⟨_, _, e3, s1, hh, hc⟩ := runInternal_ok h
  obtain ⟨b1, b2⟩ := heads_best hrb hh
  obtain ⟨d1, _, _, d4⟩ := hh.basic
  have hall : (s1.records.filter fun x => ¬ x.Invalid) = s1.records := by
    rw [List.filter_eq_self]
    intro x hx
    simpa using (d4 x hx).2.1
  rw [hro] at b2
  rw [e3]
  rcases hc with ⟨e1, _, _, e4, _⟩ | ⟨s2, rec, control, rs, e1, _, _, _, _, hc⟩
  · rw [e1, e4, hall]
    exact ⟨b1, b2⟩
  · rw [e1, rs.records, List.filter_append, hall]
    rcases hc with ⟨_, hi, hb⟩ | ⟨hv, hb, _⟩
    · rw [hb]
      simp only [List.filter_cons, hi, not_true_eq_false, decide_false, Bool.false_eq_true,
        ↓reduceIte, List.filter_nil, List.append_nil]
      exact ⟨b1, b2⟩
    · rw [hb, d1, hro]
      simp only [List.filter_cons, hv, not_false_eq_true, decide_true, ↓reduceIte,
        List.filter_nil]
      exact bestAfter_earliest b1 b2 (rs.real.best hv).1

/-! ### C60 -/

/-- **C60.** In every run the mode, initial mean, seed, `parallel_update`, `max_generations` and
`fun_target` are the restarter's, `max_function_evals` is the restarter's limit per run or, only for
BIPOP, something smaller, and the step size and (except for `Local`) the population size are chosen
by the strategy. Everything else is as in `default_options`. -/
theorem c60_options (h0 : Restarter.new env o = .ok r)
    (h : r.runInternal env kind src reuse = .ok (res, s)) {x : RunRecord n F R}
    (hx : x ∈ s.records) :
    ∃ mean seed step population evals,
      x.options = { o.defaultOptions with
        mode := o.mode, initialMean := mean, seed := some seed, parallelUpdate := o.parallelUpdate,
        maxGenerations := o.maxGenerationsPerRun, funTarget := o.funTarget,
        maxFunctionEvals := evals, initialStepSize := step, populationSize := population } ∧
      (evals = o.maxFunctionEvalsPerRun ∨
        ∃ b m k, o.strategy = .bipop b ∧ o.maxFunctionEvalsPerRun = some m ∧
          evals = some k ∧ k ≤ m) ∧
      (∀ l, o.strategy = .local l → population = o.defaultOptions.populationSize) := by
  obtain ⟨sk, sk', control, hh, rs⟩ := did_run_mem h hx
  obtain ⟨ho, hst, _⟩ := restarter_new h0
  obtain ⟨hok, _⟩ := hh.basic
  obtain ⟨mean, rng1, seed, rng2, _, _, hc⟩ := rs.config
  have hk := hh.sameKind
  rw [hst] at hk
  rw [hok, ho] at hc
  unfold Strategy.configure at hc
  cases hs : sk.restarter.strategy with
  | «local» l =>
    rw [hs] at hc hk
    simp only [Outcome.ok.injEq, Prod.mk.injEq] at hc
    obtain ⟨hc, _⟩ := hc
    rw [← hc]
    exact ⟨mean, seed, _, _, _, rfl, .inl rfl, fun _ _ => rfl⟩
  | ipop l =>
    rw [hs] at hc hk
    simp only [Outcome.bind_eq_ok, Outcome.ok.injEq, Prod.mk.injEq] at hc
    obtain ⟨_, _, hc, _⟩ := hc
    rw [← hc]
    refine ⟨mean, seed, _, _, _, rfl, .inl rfl, fun l' hl' => ?_⟩
    rw [hl'] at hk
    exact hk.elim
  | bipop b =>
    rw [hs] at hc hk
    have hb : ∃ b', o.strategy = .bipop b' := by
      cases hos : o.strategy with
      | bipop b' => exact ⟨b', rfl⟩
      | _ => rw [hos] at hk; exact hk.elim
    have hl : ∀ l, o.strategy ≠ .local l := by
      intro l hl
      rw [hl] at hk
      exact hk.elim
    simp only at hc
    by_cases hu : b.useLr = true
    · rw [if_pos hu] at hc
      simp only [Outcome.ok.injEq, Prod.mk.injEq] at hc
      obtain ⟨hc, _⟩ := hc
      rw [← hc]
      refine ⟨mean, seed, _, _, _, rfl, ?_, fun l' hl' => absurd hl' (hl l')⟩
      have hp : (o.runOptions mean seed).maxFunctionEvals = o.maxFunctionEvalsPerRun := rfl
      rw [hp]
      cases hm : o.maxFunctionEvalsPerRun with
      | none => exact .inl rfl
      | some m =>
        obtain ⟨b', hb⟩ := hb
        exact .inr ⟨b', m, _, hb, rfl, rfl, min_le_left _ _⟩
    · rw [if_neg hu] at hc
      simp only [Outcome.bind_eq_ok, Outcome.ok.injEq, Prod.mk.injEq] at hc
      obtain ⟨_, _, hc, _⟩ := hc
      rw [← hc]
      exact ⟨mean, seed, _, _, _, rfl, .inl rfl, fun l' hl' => absurd hl' (hl l')⟩

/-- **C51, in terms of points.** No point evaluated in a completed generation of a run that did not
end with `InvalidFunctionValue` is strictly better than `best`. -/
theorem c51_points_partial (h0 : Restarter.new env o = .ok r)
    (h : r.runInternal env kind src reuse = .ok (res, s)) {b : Individual n F}
    (hb : res.best = some b) {x : RunRecord n F R} (hx : x ∈ s.records) (hv : ¬ x.Invalid) :
    ∃ t, History.Of env x.obj x.options t x.final ∧
      ∀ e ∈ completedCalls t, ¬ Better o.mode e.2 b.value := by
  obtain ⟨hbn, pre, y, post, e, hy, h2, h3⟩ := (c51_best_partial h0 h).2 b hb
  have hxr := (c50_totals h).2.2 x hx
  obtain ⟨t, l, ht, _⟩ := hxr.history
  refine ⟨_, ht, ?_⟩
  have hmode : x.options.mode = o.mode := by
    obtain ⟨_, _, _, _, _, hxo, _⟩ := c60_options h0 h hx
    rw [hxo]
  obtain ⟨⟨c, hc, hcn⟩, _⟩ := hxr.best hv
  obtain ⟨_, hbest, _⟩ := c01_overall_best ht hc
  rw [hmode] at hbest
  have hcb : ¬ Better o.mode c.value b.value := by
    have hm : x ∈ pre ++ y :: post := by
      rw [← e]; exact List.mem_filter.mpr ⟨hx, by simpa using hv⟩
    rw [List.mem_append, List.mem_cons] at hm
    rcases hm with hm | rfl | hm
    · obtain ⟨c', hc', hb'⟩ := h2 x hm
      rw [hc] at hc'
      injection hc' with hc'
      subst hc'
      intro hb2
      have a1 := (Mode.isBetter_iff.mp (isBetter_iff_better.mpr hb')).2.2
      have a2 := (Mode.isBetter_iff.mp (isBetter_iff_better.mpr hb2)).2.2
      exact lt_asymm a1 a2
    · rw [hc] at hy
      injection hy with hy
      subst hy
      intro hb2
      exact lt_irrefl _ (Mode.isBetter_iff.mp (isBetter_iff_better.mpr hb2)).2.2
    · obtain ⟨c', hc', _, hb'⟩ := h3 x hm
      rw [hc] at hc'
      injection hc' with hc'
      subst hc'
      exact hb'
  intro q hq hqb
  have a1 := Mode.isBetter_iff.mp (isBetter_iff_better.mpr hqb)
  have a2 : o.mode.isBetter q.2 c.value = false := by
    rw [← Bool.not_eq_true, isBetter_iff_better]; exact hbest q hq
  have a3 := (Mode.not_isBetter_iff a1.1 hcn).mp a2
  exact hcb (isBetter_iff_better.mp (Mode.isBetter_iff.mpr ⟨hcn, hbn, lt_of_le_of_lt a3 a1.2.2⟩))

/-! ### C56 -/

/-- **C56, the evaluation limit.** With a global limit `m`, the evaluations used before each run
are less than `m`. The reason is `MaxFunctionEvals` only if the total reached `m`; if the total
reached `m` and another reason is given, that reason is about the last run or there was no run to
perform. -/
theorem c56_evals (h0 : Restarter.new env o = .ok r)
    (h : r.runInternal env kind src reuse = .ok (res, s)) :
    (∀ m, o.maxFunctionEvals = some m →
      (∀ pre x post, s.records = pre ++ x :: post → totalEvals pre < m) ∧
      (res.reason = .maxFunctionEvals → m ≤ res.functionEvals) ∧
      (res.reason = .maxTime → res.functionEvals < m)) ∧
    (o.maxFunctionEvals = none → res.reason ≠ .maxFunctionEvals) := by
  obtain ⟨ho, _⟩ := restarter_new h0
  constructor
  · intro m hm
    refine ⟨?_, ?_⟩
    · intro pre x post hs
      obtain ⟨sk, sk', control, hh, hk, rs⟩ := did_run h hs
      obtain ⟨b1, b2, _⟩ := hh.basic
      rw [← hk, ← b2]
      exact rs.budget m (by rw [b1, ho, hm])
    · obtain ⟨e1, _, _, s1, hh, hc⟩ := runInternal_ok h
      obtain ⟨b1, b2, _⟩ := hh.basic
      rw [e1]
      rcases hc with ⟨_, e2, _, _, _, hc⟩ | ⟨s2, rec, control, rs, _, e2, _, _, _, hc⟩
      · rw [e2]
        rcases hc with ⟨hr, _⟩ | ⟨hr, _, m', hm', hle⟩ | ⟨hr, hrd, _⟩
        · rw [hr]; simp
        · rw [b1, ho, hm] at hm'
          injection hm' with hm'
          subst hm'
          rw [hr]
          simpa using hle
        · rw [hr]
          simpa using hrd.2 m (by rw [b1, ho, hm])
      · rcases hc with ⟨hr, _⟩ | ⟨_, _, ⟨hr, _⟩ | ⟨hr, _⟩⟩ <;> rw [hr] <;> simp
  · intro hm hr
    obtain ⟨e1, _, _, s1, hh, hc⟩ := runInternal_ok h
    obtain ⟨b1, b2, _⟩ := hh.basic
    rcases hc with ⟨_, e2, _, _, _, hc⟩ | ⟨s2, rec, control, rs, _, e2, _, _, _, hc⟩
    · rcases hc with ⟨hr', _⟩ | ⟨_, _, m', hm', _⟩ | ⟨hr', _⟩
      · rw [hr'] at hr; cases hr
      · rw [b1, ho, hm] at hm'; cases hm'
      · rw [hr'] at hr; cases hr
    · rcases hc with ⟨hr', _⟩ | ⟨_, _, ⟨hr', _⟩ | ⟨hr', _⟩⟩ <;> rw [hr'] at hr <;> cases hr

/-- **C56, overshoot.** The total exceeds the limit by less than the evaluations of the last run. -/
theorem c56_overshoot (h0 : Restarter.new env o = .ok r)
    (h : r.runInternal env kind src reuse = .ok (res, s)) {m : Nat}
    (hm : o.maxFunctionEvals = some m) {pre : List (RunRecord n F R)} {x : RunRecord n F R}
    (hs : s.records = pre ++ [x]) : res.functionEvals < m + x.evals := by
  have h1 := ((c56_evals h0 h).1 m hm).1 pre x [] hs
  have h2 : res.functionEvals = totalEvals s.records := (c50_totals h).2.1
  rw [h2, hs]
  simp only [totalEvals, List.map_append, List.map_cons, List.map_nil, List.sum_append,
    List.sum_cons, List.sum_nil] at h1 ⊢
  omega

/-- **C56, limit zero.** With a global limit of zero no run is performed and nothing is found. -/
theorem c56_zero (h0 : Restarter.new env o = .ok r)
    (h : r.runInternal env kind src reuse = .ok (res, s)) (hm : o.maxFunctionEvals = some 0) :
    res.runs = 0 ∧ s.records = [] ∧ res.functionEvals = 0 ∧ res.best = none := by
  have hnil : s.records = [] := by
    rcases List.eq_nil_or_concat s.records with h1 | ⟨pre, x, h1⟩
    · exact h1
    · have := ((c56_evals h0 h).1 0 hm).1 pre x [] (by rw [h1]; simp)
      omega
  obtain ⟨h1, h2, _⟩ := c50_totals h
  refine ⟨by rw [h1, hnil]; rfl, hnil, by rw [h2, hnil]; rfl, ?_⟩
  rw [(c51_best_partial h0 h).1, hnil]
  rfl

/-- **C56, the time limit.** It is checked, by reading the clock, before each run and only there.
The first reading of the clock is the start. The reading after the runs before a run, which is the
last one before that run reads the clock to record when it was created, showed that the time used
was below the limit. `MaxTime` is reported only if the reading after all runs showed that it was
not. -/
theorem c56_time (h0 : Restarter.new env o = .ok r)
    (h : r.runInternal env kind src reuse = .ok (res, s)) :
    (∀ m, o.maxTime = some m →
      (∀ pre x post, s.records = pre ++ x :: post →
        env.clock (clockReadsAfter pre) - env.clock 0 < m ∧
        x.final.timeCreated = env.clock (clockReadsAfter pre + 1)) ∧
      (res.reason = .maxTime → m ≤ env.clock (clockReadsAfter s.records) - env.clock 0)) ∧
    (o.maxTime = none → res.reason ≠ .maxTime) := by
  obtain ⟨ho, _⟩ := restarter_new h0
  have ht : ∀ s1, Heads env kind reuse (r.start env src) s1 → s1.timeStarted = env.clock 0 ∧
      s1.world.clockReads = clockReadsAfter s1.records := by
    intro s1 hh
    refine hh.ind (P := fun s => s.timeStarted = env.clock 0 ∧
      s.world.clockReads = clockReadsAfter s.records) ?_ ?_
    · unfold Restarter.start World.now
      simp only
      split <;> exact ⟨rfl, rfl⟩
    · rintro s s' rec _ ⟨h1, _⟩ p
      refine ⟨by rw [p.timeStarted, h1], ?_⟩
      rw [p.reads, p.records]
      simp [clockReadsAfter]
  constructor
  · intro m hm
    refine ⟨?_, ?_⟩
    · intro pre x post hx
      obtain ⟨sk, sk', control, hh, hpre, rs⟩ := did_run h hx
      have hmk : sk.restarter.options.maxTime = some m := by rw [hh.basic.1, ho, hm]
      have := rs.time m hmk
      rw [(ht _ hh).1, (ht _ hh).2, hpre] at this
      refine ⟨this, ?_⟩
      obtain ⟨w, c0, c1, hw, hn, hc1, hrun⟩ := rs.built
      rw [hmk, (ht _ hh).2, hpre] at hw
      obtain ⟨t, s', he, _⟩ := run_ok hrun
      obtain ⟨_, i⟩ := exec_inv he
      rw [i.config.timeCreated]
      have h1 : c1.timeCreated = c0.timeCreated := by
        rcases hc1 with rfl | ⟨_, rfl⟩ <;> rfl
      rw [h1, (new_eq_ok hn).2]
      have h2 : (CMAES.create env w x.obj x.options).timeCreated = env.clock w.clockReads := by
        unfold CMAES.create World.now
        simp only
        split <;> rfl
      rw [h2, hw]
      rfl
    · intro hr
      obtain ⟨e1, _, _, s1, hh, hc⟩ := runInternal_ok h
      obtain ⟨b1, b2, _⟩ := hh.basic
      rcases hc with ⟨e0, e2, _, _, _, hc⟩ | ⟨s2, rec, control, rs, _, e2, _, _, _, hc⟩
      · rcases hc with ⟨hr', _⟩ | ⟨hr', _⟩ | ⟨_, _, m', hm', hle⟩
        · rw [hr'] at hr; cases hr
        · rw [hr'] at hr; cases hr
        · rw [b1, ho, hm] at hm'
          injection hm' with hm'
          subst hm'
          rw [(ht _ hh).1, (ht _ hh).2] at hle
          rw [e0]
          exact hle
      · rcases hc with ⟨hr', _⟩ | ⟨_, _, ⟨hr', _⟩ | ⟨hr', _⟩⟩ <;> rw [hr'] at hr <;> cases hr
  · intro hm hr
    obtain ⟨e1, _, _, s1, hh, hc⟩ := runInternal_ok h
    obtain ⟨b1, b2, _⟩ := hh.basic
    rcases hc with ⟨_, e2, _, _, _, hc⟩ | ⟨s2, rec, control, rs, _, e2, _, _, _, hc⟩
    · rcases hc with ⟨hr', _⟩ | ⟨hr', _⟩ | ⟨_, _, m', hm', _⟩
      · rw [hr'] at hr; cases hr
      · rw [hr'] at hr; cases hr
      · rw [b1, ho, hm] at hm'; cases hm'
    · rcases hc with ⟨hr', _⟩ | ⟨_, _, ⟨hr', _⟩ | ⟨hr', _⟩⟩ <;> rw [hr'] at hr <;> cases hr

/-! ### C57 -/

/-- **C57.** Only the last run can have ended with `InvalidFunctionValue` or `FunTarget`, and the
reason reported is `InvalidFunctionValue` exactly if the last run ended with it, and otherwise
`FunTarget` exactly if the last run ended with that. -/
theorem c57_reason (h : r.runInternal env kind src reuse = .ok (res, s)) :
    (∀ pre x y post, s.records = pre ++ x :: y :: post → ¬ x.Invalid ∧ ¬ x.HitTarget) ∧
    (res.reason = .invalidFunctionValue ↔ ∃ x, s.records.getLast? = some x ∧ x.Invalid) ∧
    (res.reason = .funTarget ↔
      ∃ x, s.records.getLast? = some x ∧ ¬ x.Invalid ∧ x.HitTarget) := by
  obtain ⟨_, _, _, s1, hh, hc⟩ := runInternal_ok h
  obtain ⟨_, _, _, b4⟩ := hh.basic
  rcases hc with ⟨e1, _, _, _, _, hc⟩ | ⟨s2, rec, control, rs, e1, _, _, _, _, hc⟩
  · rw [e1]
    have hl : ∀ x, s1.records.getLast? = some x → ¬ x.Invalid ∧ ¬ x.HitTarget :=
      fun x hx => (b4 x (List.mem_of_getLast? hx)).2
    refine ⟨fun pre x y post hs => (b4 x (by rw [hs]; simp)).2, ?_, ?_⟩
    · constructor
      · intro hr
        rcases hc with ⟨hr', _⟩ | ⟨hr', _⟩ | ⟨hr', _⟩ <;> rw [hr'] at hr <;> cases hr
      · rintro ⟨x, hx, hi⟩
        exact absurd hi (hl x hx).1
    · constructor
      · intro hr
        rcases hc with ⟨hr', _⟩ | ⟨hr', _⟩ | ⟨hr', _⟩ <;> rw [hr'] at hr <;> cases hr
      · rintro ⟨x, hx, _, hi⟩
        exact absurd hi (hl x hx).2
  · rw [e1, rs.records]
    have hlast : (s1.records ++ [rec]).getLast? = some rec := by simp
    refine ⟨?_, ?_, ?_⟩
    · intro pre x y post hs
      rcases snoc_split hs with ⟨h1, _⟩ | ⟨post', _, h2⟩
      · cases h1
      · exact (b4 x (by rw [h2]; simp)).2
    · rw [hlast]
      rcases hc with ⟨hr, hi, _⟩ | ⟨hv, _, ⟨hr, _⟩ | ⟨hr, _⟩⟩ <;> rw [hr] <;> simp [*]
    · rw [hlast]
      rcases hc with ⟨hr, hi, _⟩ | ⟨hv, _, ⟨hr, _⟩ | ⟨hr, _⟩⟩ <;> rw [hr] <;> simp [*]

/-! ### Examples and refutations -/

/-- Builds and runs a restarter and tests the result. -/
def tryRestart {n : Nat} {F R : Type} [Flt F] (env : Env n F R) (kind : EvalKind)
    (src : ObjSource n F) (reuse : Bool) (o : RestartOptions n F)
    (p : RestartResults n F → RestartState n F R → Bool) : Bool :=
  match Restarter.new env o with
  | .error _ => false
  | .ok r => (r.runInternal env kind src reuse).check fun x => p x.1 x.2

theorem of_tryRestart {p : RestartResults n F → RestartState n F R → Bool}
    (h : tryRestart env kind src reuse o p = true) :
    ∃ r res s, Restarter.new env o = .ok r ∧ r.runInternal env kind src reuse = .ok (res, s) ∧
      p res s = true := by
  unfold tryRestart at h
  split at h
  · simp at h
  · rename_i r hr
    obtain ⟨⟨res, s⟩, h1, h2⟩ := Outcome.of_check h
    exact ⟨r, res, s, hr, h1, h2⟩

open Witness in
/-- Options of a restarter in two dimensions: the range is `[1, 5]`, the default population is four
and a run has at most two generations. -/
def Witness.restartOpts (st : Strategy F64) : RestartOptions 2 F64 :=
  { RestartOptions.new 2 1 5 st with defaultOptions := opts.toOptionsCore, maxGenerationsPerRun := some 2, seed := some 3 }

open Witness in
/-- `Local::new(m, None)`. -/
def Witness.localStrategy (m : Nat) : Strategy F64 := .local ⟨0, Flt.ofRat (1 / 2), m⟩

open Witness in
theorem Witness.localStrategy_made (m : Nat) :
    Local.new (F := F64) m none = .ok ⟨0, Flt.ofRat (1 / 2), m⟩ := rfl

open Witness in
/-- The hypotheses of C50, C51, C59 and C60 are met: three runs with a reused objective function,
which was called 24 times; the best individual is present. -/
example : ∃ r res s, Restarter.new (wenv 2) (restartOpts (localStrategy 3)) = .ok r ∧
    r.runWithReuse (wenv 2) .seq sphere = .ok (res, s) ∧ res.runs = 3 ∧ res.functionEvals = 24 ∧
    (objectiveAfter sphere s.records).log.length = 24 ∧ res.best.isSome ∧ res.reason = .maxRuns ∧
    s.records.length = 3 ∧ ∀ x ∈ s.records, ¬ x.Invalid := by
  obtain ⟨r, res, s, h0, h, hp⟩ := of_tryRestart (env := wenv 2) (kind := .seq)
    (src := .once (some sphere)) (reuse := true) (o := restartOpts (localStrategy 3))
    (p := fun res s => decide (res.runs = 3 ∧ res.functionEvals = 24 ∧
      (objectiveAfter sphere s.records).log.length = 24 ∧ res.best.isSome ∧ res.reason = .maxRuns ∧
      s.records.length = 3 ∧ ∀ x ∈ s.records, ¬ x.Invalid)) (by decide +kernel)
  exact ⟨r, res, s, h0, h, of_decide_eq_true hp⟩

open Witness in
/-- **C50, refutation.** `run_with_reuse` with an objective function that returns NaN on its sixth
call: the objective function was called six times but `function_evals` is four. -/
theorem c50_undercount : ∃ r res s, Restarter.new (wenv 2) (restartOpts (localStrategy 3)) = .ok r ∧
    r.runWithReuse (wenv 2) .seq nanAtSix = .ok (res, s) ∧ res.functionEvals = 4 ∧
    (objectiveAfter nanAtSix s.records).log.length = 6 := by
  obtain ⟨r, res, s, h0, h, hp⟩ := of_tryRestart (env := wenv 2) (kind := .seq)
    (src := .once (some nanAtSix)) (reuse := true) (o := restartOpts (localStrategy 3))
    (p := fun res s => decide (res.functionEvals = 4 ∧
      (objectiveAfter nanAtSix s.records).log.length = 6)) (by decide +kernel)
  exact ⟨r, res, s, h0, h, of_decide_eq_true hp⟩

open Witness in
/-- **C51, refutation.** The best individual of a run that ends with `InvalidFunctionValue` is lost:
here the run had one, but `best` is `None`. -/
theorem c51_lost : ∃ r res s, Restarter.new (wenv 2) (restartOpts (localStrategy 3)) = .ok r ∧
    r.runWithReuse (wenv 2) .seq nanAtSix = .ok (res, s) ∧ res.best.isNone ∧
    res.reason = .invalidFunctionValue ∧
    ∃ x ∈ s.records, x.final.overallBestIndividual.isSome := by
  obtain ⟨r, res, s, h0, h, hp⟩ := of_tryRestart (env := wenv 2) (kind := .seq)
    (src := .once (some nanAtSix)) (reuse := true) (o := restartOpts (localStrategy 3))
    (p := fun res s => decide (res.best.isNone ∧ res.reason = .invalidFunctionValue ∧
      ∃ x ∈ s.records, x.final.overallBestIndividual.isSome)) (by decide +kernel)
  exact ⟨r, res, s, h0, h, of_decide_eq_true hp⟩

open Witness in
/-- C56: with a limit of ten evaluations two runs of eight are made. -/
example : ∃ r res s,
    Restarter.new (wenv 2)
      { restartOpts (localStrategy 5) with maxFunctionEvals := some 10 } = .ok r ∧
    r.run (wenv 2) .par (fun _ => sphere) = .ok (res, s) ∧ res.runs = 2 ∧
      res.functionEvals = 16 ∧ res.reason = .maxFunctionEvals := by
  obtain ⟨r, res, s, h0, h, hp⟩ := of_tryRestart (env := wenv 2) (kind := .par)
    (src := .factory fun _ => sphere) (reuse := false)
    (o := { restartOpts (localStrategy 5) with maxFunctionEvals := some 10 })
    (p := fun res _ => decide (res.runs = 2 ∧ res.functionEvals = 16 ∧
      res.reason = .maxFunctionEvals)) (by decide +kernel)
  exact ⟨r, res, s, h0, h, of_decide_eq_true hp⟩

open Witness in
/-- C56: a limit of zero evaluations. -/
example : ∃ r res s,
    Restarter.new (wenv 2)
      { restartOpts (localStrategy 5) with maxFunctionEvals := some 0 } = .ok r ∧
    r.run (wenv 2) .seq (fun _ => sphere) = .ok (res, s) := by
  obtain ⟨r, res, s, h0, h, hp⟩ := of_tryRestart (env := wenv 2) (kind := .seq)
    (src := .factory fun _ => sphere) (reuse := false)
    (o := { restartOpts (localStrategy 5) with maxFunctionEvals := some 0 })
    (p := fun _ _ => true) (by decide +kernel)
  exact ⟨r, res, s, h0, h⟩

open Witness in
/-- C56: a time limit, with a clock that advances by one whenever it is read. -/
example : ∃ r res s,
    Restarter.new (wenv 2) { restartOpts (localStrategy 5) with maxTime := some 3 } = .ok r ∧
    r.run (wenv 2) .seq (fun _ => sphere) = .ok (res, s) ∧ 1 ≤ res.runs ∧
      res.reason = .maxTime := by
  obtain ⟨r, res, s, h0, h, hp⟩ := of_tryRestart (env := wenv 2) (kind := .seq)
    (src := .factory fun _ => sphere) (reuse := false)
    (o := { restartOpts (localStrategy 5) with maxTime := some 3 })
    (p := fun res _ => decide (1 ≤ res.runs ∧ res.reason = .maxTime)) (by decide +kernel)
  exact ⟨r, res, s, h0, h, of_decide_eq_true hp⟩

open Witness in
/-- C57: the target is reached in the first of five runs. -/
example : ∃ r res s,
    Restarter.new (wenv 2) { restartOpts (localStrategy 5) with funTarget := some 100 } = .ok r ∧
    r.run (wenv 2) .seq (fun _ => sphere) = .ok (res, s) ∧ res.runs = 1 ∧
      res.reason = .funTarget := by
  obtain ⟨r, res, s, h0, h, hp⟩ := of_tryRestart (env := wenv 2) (kind := .seq)
    (src := .factory fun _ => sphere) (reuse := false)
    (o := { restartOpts (localStrategy 5) with funTarget := some 100 })
    (p := fun res _ => decide (res.runs = 1 ∧ res.reason = .funTarget)) (by decide +kernel)
  exact ⟨r, res, s, h0, h, of_decide_eq_true hp⟩

end Cmaes
