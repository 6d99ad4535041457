import Verif.Lemmas.Parallel
import Verif.Props.Best
import Verif.Witness

/-!
# C12: parallel evaluation gives the same result as sequential evaluation
-/

set_option linter.unusedSectionVars false

namespace Cmaes
variable {n : Nat} {F R : Type} [Flt F] [FltLaws F]

/-- `c'` differs from `c` in the recorded calls only, and if no value is NaN these are the same
calls in another order. -/
structure LogSim (c c' : CMAES n F R) : Prop where
  erase : c'.eraseLog = c.eraseLog
  perm : (∀ x, Flt.isNaN (c.sampler.obj.f [] x) = false) →
    c'.sampler.obj.log.Perm c.sampler.obj.log

namespace LogSim
variable {c c' : CMAES n F R}

theorem eq_with (h : LogSim c c') :
    c' = { c with sampler := { c.sampler with obj := { c.sampler.obj with
      log := c'.sampler.obj.log } } } := by
  have := h.erase
  cases c; cases c'
  rename_i s _ _ _ _ _ _ _ _ s' _ _ _ _ _ _ _ _
  cases s; cases s'
  rename_i o _ _ _ _ _ o' _
  cases o; cases o'
  simp only [CMAES.eraseLog, CMAES.mk.injEq, Sampler.mk.injEq, Obj.mk.injEq] at this ⊢
  simp [this]

/-- From a pair of sampler and record. -/
theorem intro' {l : List (Vec n F × F)}
    (h : (∀ x, Flt.isNaN (c.sampler.obj.f [] x) = false) → l.Perm c.sampler.obj.log) :
    LogSim c { c with sampler := { c.sampler with obj := { c.sampler.obj with log := l } } } :=
  ⟨rfl, h⟩

end LogSim

/-- Replaces the record of calls. -/
def CMAES.withLog (l : List (Vec n F × F)) (c : CMAES n F R) : CMAES n F R :=
  { c with sampler := { c.sampler with obj := { c.sampler.obj with log := l } } }

theorem withLog_print (l : List (Vec n F × F)) (c : CMAES n F R) (e : PrintEvent n F) :
    (c.withLog l).print e = (c.print e).withLog l := rfl
theorem withLog_printInfo (l : List (Vec n F × F)) (c : CMAES n F R) :
    (c.withLog l).printInfo = c.printInfo.withLog l := rfl
theorem withLog_addPlotPoint (l : List (Vec n F × F)) (c : CMAES n F R) :
    (c.withLog l).addPlotPoint = c.addPlotPoint.withLog l := rfl

theorem withLog_autoPlot (l : List (Vec n F × F)) (c : CMAES n F R) :
    (c.withLog l).autoPlot = (CMAES.withLog l) <$> c.autoPlot := by
  cases c with
  | mk s p st hi pl pg lp tc w =>
    cases pl with
    | none => rfl
    | some q =>
      simp only [CMAES.autoPlot, CMAES.withLog]
      by_cases h1 : st.generation ≤ 1
      · simp only [h1, ↓reduceIte]; rfl
      · simp only [h1, ↓reduceIte]
        cases q.nextDataPointEvals with
        | ok a =>
          simp only [Outcome.ok_bind, Outcome.map_eq_bind]
          by_cases h2 : a ≤ s.functionEvals
          · simp only [h2, ↓reduceIte]; rfl
          · simp only [h2, ↓reduceIte]; rfl
        | panic _ => rfl
        | diverge => rfl

theorem withLog_autoPrint (l : List (Vec n F × F)) (c : CMAES n F R) :
    (c.withLog l).autoPrint = (CMAES.withLog l) <$> c.autoPrint := by
  cases c with
  | mk s p st hi pl pg lp tc w =>
    cases pg with
    | none => rfl
    | some g =>
      simp only [CMAES.autoPrint, CMAES.withLog]
      cases usizeAdd lp g with
      | ok a =>
        simp only [Outcome.ok_bind, Outcome.map_eq_bind]
        by_cases h2 : a ≤ s.functionEvals
        · simp only [h2, ↓reduceIte]; rfl
        · simp only [h2, ↓reduceIte]
          by_cases h3 : st.generation < 4
          · simp only [h3, ↓reduceIte]; rfl
          · simp only [h3, ↓reduceIte]; rfl
      | panic _ => rfl
      | diverge => rfl

theorem withLog_checkTermination (env : Env n F R) (sched : Nat → Sched)
    (inds : List (EvaluatedPoint n F)) (l : List (Vec n F × F)) (c : CMAES n F R) :
    (c.withLog l).checkTermination { env with sched } inds =
      (fun x => (x.1.withLog l, x.2)) <$> c.checkTermination env inds := by
  unfold CMAES.checkTermination
  have e : (c.withLog l).parameters = c.parameters := rfl
  rw [e]
  cases c.parameters.termination.maxTime with
  | none =>
    simp only [Option.isSome_none, Bool.false_eq_true, if_false, Outcome.map_eq_bind, bind_assoc]
    rfl
  | some _ =>
    simp only [Option.isSome_some, if_true, Outcome.map_eq_bind, bind_assoc, World.now]
    rfl

theorem withLog_nextInternal (env : Env n F R) (sched : Nat → Sched) (tree : SplitTree)
    (inds : List (EvaluatedPoint n F)) (l : List (Vec n F × F)) (c : CMAES n F R) :
    (c.withLog l).nextInternal { env with sched } tree inds =
      (fun x => (x.1.withLog l, x.2)) <$> c.nextInternal env tree inds := by
  unfold CMAES.nextInternal
  show (c.state.update env.eigen tree c.sampler.functionEvals c.parameters inds >>= _) = _
  cases c.state.update env.eigen tree c.sampler.functionEvals c.parameters inds with
  | panic _ => rfl
  | diverge => rfl
  | ok a =>
    obtain ⟨st, b⟩ := a
    cases b with
    | false => rfl
    | true =>
      simp only [Outcome.ok_bind, if_true]
      have h1 : ({ c.withLog l with state := st } : CMAES n F R) =
        ({ c with state := st } : CMAES n F R).withLog l := rfl
      rw [h1, withLog_autoPlot]
      cases ({ c with state := st } : CMAES n F R).autoPlot with
      | panic _ => rfl
      | diverge => rfl
      | ok c1 =>
        simp only [Outcome.map_eq_bind, Outcome.ok_bind]
        rw [withLog_autoPrint]
        cases c1.autoPrint with
        | panic _ => rfl
        | diverge => rfl
        | ok c2 =>
          simp only [Outcome.map_eq_bind, Outcome.ok_bind]
          rw [withLog_checkTermination, Outcome.map_eq_bind]

/-- Sampling: evaluation order and kind do not matter. -/
theorem sample_par {env : Env n F R} {sched : Nat → Sched} {kind kind' : EvalKind} {sd sd' : Sched}
    {T : Mat n F} {mean : Vec n F} {sigma : F} {mode : Mode} {s : Sampler n F R}
    (hf : Stateless s.obj.f) {l : List (Vec n F × F)}
    (hl : (∀ x, Flt.isNaN (s.obj.f [] x) = false) → l.Perm s.obj.log) :
    Outcome.Rel (fun a b => b.1 = a.1 ∧ a.2.obj.f = s.obj.f ∧
        ∃ l', b.2 = { a.2 with obj := { a.2.obj with log := l' } } ∧
          ((∀ x, Flt.isNaN (s.obj.f [] x) = false) → l'.Perm a.2.obj.log))
      (s.sample env kind sd T mean sigma mode)
      (({ s with obj := { s.obj with log := l } } : Sampler n F R).sample { env with sched } kind' sd' T
        mean sigma mode) := by
  unfold Sampler.sample
  refine Outcome.Rel.bind (Outcome.Rel.of_eq rfl) ?_
  rintro ⟨ys, r⟩ _ rfl
  -- both evaluations
  have eval : ∀ (k : EvalKind) (sd : Sched) (o : Obj n F), Stateless o.f →
      ∃ calls, (match k with
        | .seq => evalSeq mean sigma ys o
        | .par => evalPar sd mean sigma ys o) =
        (ys.mapM (pureEval o.f mean sigma), { o with log := o.log ++ calls }) ∧
      (∀ ps, ys.mapM (pureEval o.f mean sigma) = some ps →
        calls.Perm (ps.map EvaluatedPoint.call)) := by
    intro k sd o ho
    have hobj : ∀ {l} (o2 : Obj n F), o2.f = o.f → o2.log = l → o2 = { o with log := l } := by
      intro l o2 e1 e2
      cases o2
      simp only at e1 e2
      rw [e1, e2]
    cases k with
    | seq =>
      obtain ⟨h1, h2⟩ := evalSeq_pure ho mean sigma ys
      obtain ⟨calls, h3, _, h4, _⟩ := evalSeq_spec (rfl : evalSeq mean sigma ys o = (_, _))
      refine ⟨calls, ?_, fun ps hps => by rw [(h4 ps (h1.trans hps)).1]⟩
      refine Prod.ext h1 ?_
      exact hobj _ h2 h3
    | par =>
      obtain ⟨h1, h2⟩ := evalPar_pure ho sd mean sigma ys
      obtain ⟨calls, h3, _, h4, _⟩ := evalPar_spec (rfl : evalPar sd mean sigma ys o = (_, _))
      refine ⟨calls, ?_, fun ps hps => (h4 ps (h1.trans hps)).1⟩
      refine Prod.ext h1 ?_
      exact hobj _ h2 h3
  obtain ⟨ca, h1, h2⟩ := eval kind sd s.obj hf
  obtain ⟨cb, h3, h4⟩ := eval kind' sd' { s.obj with log := l } hf
  have hmain : ∀ (er er' : Option (List (EvaluatedPoint n F)) × Obj n F),
      er = (ys.mapM (pureEval s.obj.f mean sigma), { s.obj with log := s.obj.log ++ ca }) →
      er' = (ys.mapM (pureEval s.obj.f mean sigma), { s.obj with log := l ++ cb }) →
      Outcome.Rel (fun a b => b.1 = a.1 ∧ a.2.obj.f = s.obj.f ∧
        ∃ l', b.2 = { a.2 with obj := { a.2.obj with log := l' } } ∧
          ((∀ x, Flt.isNaN (s.obj.f [] x) = false) → l'.Perm a.2.obj.log))
      (match er.1 with
        | none => Outcome.ok (none, ({ s with rng := r, obj := er.2 } : Sampler n F R))
        | some ps => Outcome.ok (some (sortPoints mode ps), { s with
            rng := r, obj := er.2, functionEvals := s.functionEvals + ps.length }))
      (match er'.1 with
        | none => Outcome.ok (none, ({ s with rng := r, obj := er'.2 } : Sampler n F R))
        | some ps => Outcome.ok (some (sortPoints mode ps), { s with
            rng := r, obj := er'.2, functionEvals := s.functionEvals + ps.length })) := by
    rintro _ _ rfl rfl
    simp only
    cases hm : ys.mapM (pureEval s.obj.f mean sigma) with
    | none =>
      refine .ok ⟨rfl, rfl, _, rfl, ?_⟩
      intro hnan
      exfalso
      have hps : ys.mapM (pureEval s.obj.f mean sigma) = some
          (ys.map fun y => ⟨toPoint y mean sigma, y, s.obj.f [] (toPoint y mean sigma)⟩) := by
        rw [mapM_option_eq_some, List.map_map]
        apply List.map_congr_left
        intro y _
        simp [pureEval, hnan]
      rw [hm] at hps
      cases hps
    | some ps =>
      refine .ok ⟨rfl, rfl, _, rfl, ?_⟩
      intro hnan
      exact (hl hnan).append ((h4 ps hm).trans (h2 ps hm).symm)
  exact hmain _ _ h1 h3

/-- One step. -/
theorem next_par {env : Env n F R} {sched : Nat → Sched} {kind kind' : EvalKind}
    {c c' : CMAES n F R} (hf : Stateless c.sampler.obj.f) (h : LogSim c c') :
    Outcome.Rel (fun a b => LogSim a.1 b.1 ∧ a.1.sampler.obj.f = c.sampler.obj.f ∧ b.2 = a.2)
      (c.next env kind) (c'.next { env with sched } kind') := by
  have hc := h.eq_with
  have hl := h.perm
  generalize c'.sampler.obj.log = l at *
  subst hc
  unfold CMAES.next
  refine Outcome.Rel.bind (sample_par hf hl) ?_
  rintro ⟨res, s⟩ ⟨res', s'⟩ ⟨h1, h2, l', h3, h4⟩
  simp only at h1 h2 h3 h4
  subst h3
  rw [h1]
  rw [← h2] at h4
  cases res with
  | none => exact .ok ⟨.intro' h4, h2, rfl⟩
  | some inds =>
    refine Outcome.Rel.bind (Outcome.Rel.of_eq rfl) ?_
    rintro hist _ rfl
    have := withLog_nextInternal env sched (env.redTree c.world.steps) inds l'
      { c with sampler := s, world := { c.world with steps := c.world.steps + 1 }, history := hist }
    have e : ∀ x : Outcome (CMAES n F R × Option (TerminationData n F)),
        (∀ a, x = .ok a → a.1.sampler = s) →
        Outcome.Rel (fun a b => LogSim a.1 b.1 ∧ a.1.sampler.obj.f = c.sampler.obj.f ∧ b.2 = a.2) x
          ((fun x => (x.1.withLog l', x.2)) <$> x) := by
      intro x hx
      cases x with
      | panic p => exact .panic p
      | diverge => exact .diverge
      | ok a =>
        have := hx a rfl
        refine .ok ⟨.intro' ?_, by rw [this]; exact h2, rfl⟩
        rw [this]; exact h4
    have key := e (CMAES.nextInternal env (env.redTree c.world.steps) inds
      { c with sampler := s, world := { c.world with steps := c.world.steps + 1 },
               history := hist }) ?_
    · rw [← this] at key
      exact key
    · rintro ⟨c2, r⟩ hx
      unfold CMAES.nextInternal at hx
      simp only [Outcome.bind_eq_ok] at hx
      obtain ⟨⟨st, b⟩, _, hx⟩ := hx
      cases b with
      | false =>
        simp only [Bool.false_eq_true, if_false, Outcome.ok.injEq, Prod.mk.injEq] at hx
        rw [← hx.1]
      | true =>
        simp only [if_true, Outcome.bind_eq_ok] at hx
        obtain ⟨c3, hc3, c4, hc4, hx⟩ := hx
        exact ((sameSearch_autoPlot hc3).trans ((sameSearch_autoPrint hc4).trans
          (checkTermination_eq_ok hx).1)).sampler

theorem runLoop_par {env : Env n F R} {sched : Nat → Sched} {kind kind' : EvalKind} (fuel : Nat)
    {c c' : CMAES n F R} (hf : Stateless c.sampler.obj.f) (h : LogSim c c') :
    Outcome.Rel (fun a b => LogSim a.1 b.1 ∧ a.1.sampler.obj.f = c.sampler.obj.f ∧ b.2 = a.2)
      (c.runLoop env kind fuel) (c'.runLoop { env with sched } kind' fuel) := by
  induction fuel generalizing c c' with
  | zero => exact .diverge
  | succ fuel ih =>
    simp only [CMAES.runLoop]
    refine Outcome.Rel.bind (next_par hf h) ?_
    rintro ⟨a, r⟩ ⟨b, r'⟩ ⟨h1, h2, h3⟩
    simp only at h1 h2 h3
    subst h3
    cases r' with
    | none =>
      refine (ih (by rw [h2]; exact hf) h1).mono ?_
      rintro x y ⟨h3, h4, h5⟩
      exact ⟨h3, h4.trans h2, h5⟩
    | some d => exact .ok ⟨h1, h2, rfl⟩

theorem runInternal_par {c c' : CMAES n F R} (d : TerminationData n F) (h : LogSim c c') :
    LogSim (c.runInternal d) (c'.runInternal d) := by
  have hc := h.eq_with
  have hl := h.perm
  generalize c'.sampler.obj.log = l at *
  subst hc
  have e1 : CMAES.runInternal (c.withLog l) d = (c.runInternal d).withLog l := by
    unfold CMAES.runInternal
    rw [withLog_addPlotPoint]
    have e : (c.addPlotPoint.withLog l).printGapEvals = c.addPlotPoint.printGapEvals := rfl
    simp only [e]
    split
    · unfold CMAES.printFinalInfo
      have e2 : (c.addPlotPoint.withLog l).sampler.functionEvals =
        c.addPlotPoint.sampler.functionEvals := rfl
      have e3 : (c.addPlotPoint.withLog l).lastPrintEvals = c.addPlotPoint.lastPrintEvals := rfl
      simp only [e2, e3]
      by_cases hne : c.addPlotPoint.sampler.functionEvals ≠ c.addPlotPoint.lastPrintEvals
      · simp only [if_pos hne, withLog_printInfo]; rfl
      · simp only [if_neg hne]; rfl
    · rfl
  have e2 : (c.runInternal d).sampler = c.sampler := by
    unfold CMAES.runInternal
    simp only
    split
    · exact (sameSearch_printFinalInfo c.addPlotPoint d.reasons).sampler
    · rfl
  show LogSim _ (CMAES.runInternal (c.withLog l) d)
  rw [e1]
  exact .intro' (by rw [e2]; exact hl)

/-- One user call. -/
theorem apply_par {env : Env n F R} {sched : Nat → Sched} {op op' : Op} {c c' : CMAES n F R}
    (hop : op'.sequential = op.sequential) (hf : Stateless c.sampler.obj.f) (h : LogSim c c') :
    Outcome.Rel (fun a b => LogSim a.1 b.1 ∧ a.1.sampler.obj.f = c.sampler.obj.f ∧ b.2 = a.2)
      (c.apply env op) (c'.apply { env with sched } op') := by
  have hq : ∀ (g : CMAES n F R → CMAES n F R), (∀ l c, g (c.withLog l) = (g c).withLog l) →
      (∀ c, (g c).sampler = c.sampler) → LogSim (g c) (g c') := by
    intro g hg hs
    have hc := h.eq_with
    have hl := h.perm
    generalize c'.sampler.obj.log = l at *
    subst hc
    show LogSim _ (g (c.withLog l))
    rw [hg]
    exact .intro' (by rw [hs]; exact hl)
  cases op with
  | next k => cases op' with
    | next k' => exact next_par hf h
    | _ => simp [Op.sequential] at hop
  | run k => cases op' with
    | run k' =>
      simp only [CMAES.apply, CMAES.run, bind_assoc, Outcome.ok_bind]
      refine Outcome.Rel.bind (runLoop_par _ hf h) ?_
      rintro ⟨a, r⟩ ⟨b, r'⟩ ⟨h1, h2, h3⟩
      simp only at h1 h2 h3
      subst h3
      refine .ok ⟨runInternal_par _ h1, ?_, rfl⟩
      have e2 : (a.runInternal r').sampler = a.sampler := by
        unfold CMAES.runInternal
        simp only
        split
        · exact (sameSearch_printFinalInfo a.addPlotPoint r'.reasons).sampler
        · rfl
      show (a.runInternal r').sampler.obj.f = _
      rw [e2]; exact h2
    | _ => simp [Op.sequential] at hop
  | addPlotPoint => cases op' with
    | addPlotPoint =>
      exact .ok ⟨hq CMAES.addPlotPoint (fun _ _ => rfl) (fun _ => rfl), rfl, rfl⟩
    | _ => simp [Op.sequential] at hop
  | clearPlot => cases op' with
    | clearPlot =>
      simp only [CMAES.apply, CMAES.clearPlot]
      have hc := h.eq_with
      have hl := h.perm
      generalize c'.sampler.obj.log = l at *
      subst hc
      obtain ⟨sa, pa, st, hi, pl, pg, lp, tc, w⟩ := c
      cases pl with
      | none => exact .ok ⟨.intro' hl, rfl, rfl⟩
      | some p =>
        simp only [bind_assoc, Outcome.ok_bind]
        refine Outcome.Rel.bind (Outcome.Rel.of_eq rfl) ?_
        rintro q _ rfl
        exact .ok ⟨.intro' (c := ⟨sa, pa, st, hi, some q, pg, lp, tc, w⟩) hl, rfl, rfl⟩
    | _ => simp [Op.sequential] at hop
  | printInitialInfo => cases op' with
    | printInitialInfo =>
      exact .ok ⟨hq CMAES.printInitialInfo (fun _ _ => rfl) (fun _ => rfl), rfl, rfl⟩
    | _ => simp [Op.sequential] at hop
  | printInfo => cases op' with
    | printInfo =>
      exact .ok ⟨hq CMAES.printInfo (fun _ _ => rfl) (fun _ => rfl), rfl, rfl⟩
    | _ => simp [Op.sequential] at hop
  | printRunInfo k => cases op' with
    | printRunInfo k' =>
      simp only [Op.sequential, Op.printRunInfo.injEq] at hop
      subst hop
      exact .ok ⟨hq (fun c => c.printRunInfo k') (fun _ _ => rfl) (fun _ => rfl), rfl, rfl⟩
    | _ => simp [Op.sequential] at hop
  | printFinalInfo rs => cases op' with
    | printFinalInfo rs' =>
      simp only [Op.sequential, Op.printFinalInfo.injEq] at hop
      subst hop
      refine .ok ⟨hq (fun c => c.printFinalInfo rs') ?_
        (fun c => (sameSearch_printFinalInfo c rs').sampler), ?_, rfl⟩
      · intro l c
        unfold CMAES.printFinalInfo
        by_cases hne : c.sampler.functionEvals ≠ c.lastPrintEvals
        · rw [if_pos hne, if_pos (show (c.withLog l).sampler.functionEvals ≠
            (c.withLog l).lastPrintEvals from hne)]; rfl
        · rw [if_neg hne, if_neg (show ¬ (c.withLog l).sampler.functionEvals ≠
            (c.withLog l).lastPrintEvals from hne)]; rfl
      · show (c.printFinalInfo rs').sampler.obj.f = _
        rw [(sameSearch_printFinalInfo c rs').sampler]
    | _ => simp [Op.sequential] at hop

theorem applyAll_par {env : Env n F R} {sched : Nat → Sched} {ops ops' : List Op}
    {c c' : CMAES n F R} (hops : ops'.map Op.sequential = ops.map Op.sequential)
    (hf : Stateless c.sampler.obj.f) (h : LogSim c c') :
    Outcome.Rel (fun a b => LogSim a.1 b.1 ∧ a.1.sampler.obj.f = c.sampler.obj.f ∧ b.2 = a.2)
      (c.applyAll env ops) (c'.applyAll { env with sched } ops') := by
  induction ops generalizing ops' c c' with
  | nil =>
    simp only [List.map_nil, List.map_eq_nil_iff] at hops
    subst hops
    exact .ok ⟨h, rfl, rfl⟩
  | cons op ops ih =>
    cases ops' with
    | nil => simp at hops
    | cons op' ops' =>
      simp only [List.map_cons, List.cons.injEq] at hops
      simp only [CMAES.applyAll]
      refine Outcome.Rel.bind (apply_par hops.1 hf h) ?_
      rintro ⟨a, r⟩ ⟨b, r'⟩ ⟨h1, h2, h3⟩
      simp only at h1 h2 h3
      subst h3
      refine Outcome.Rel.bind (ih hops.2 (by rw [h2]; exact hf) h1) ?_
      rintro ⟨a', r⟩ ⟨b', r''⟩ ⟨h4, h5, h6⟩
      simp only at h4 h5 h6
      subst h6
      exact .ok ⟨h4, h5.trans h2, rfl⟩

/-- **C12.** For an objective without state: the same user calls with sequential or parallel
evaluation, in any mixture and under any schedules, return the same data and lead to the same
`CMAES` (search state, history, counters, plot, output), or panic alike. If no value is NaN, the
objective is also called on the same points equally often. -/
theorem c12_parallel {env : Env n F R} {sched : Nat → Sched} {w : World n F} {obj : Obj n F}
    {o : Options n F} {c0 c0' : CMAES n F R} {ops ops' : List Op} (hf : Stateless obj.f)
    (h : CMAES.new env w obj o = .ok c0) (h' : CMAES.new { env with sched } w obj o = .ok c0')
    (hops : ops'.map Op.sequential = ops.map Op.sequential) :
    Outcome.Rel (fun a b => b.1.eraseLog = a.1.eraseLog ∧ b.2 = a.2 ∧
        ((∀ x, Flt.isNaN (obj.f [] x) = false) →
          b.1.intoObjectiveFunction.log.Perm a.1.intoObjectiveFunction.log))
      (c0.applyAll env ops) (c0'.applyAll { env with sched } ops') := by
  have e : c0' = c0 := by
    have : CMAES.new { env with sched } w obj o = CMAES.new env w obj o := rfl
    rw [this, h] at h'
    injection h' with h'
    exact h'.symm
  have hobj : c0.sampler.obj = obj := by
    rw [(new_eq_ok h).2, (create_search env w obj o).1]; rfl
  subst e
  refine (applyAll_par hops (by rw [hobj]; exact hf) ⟨rfl, fun _ => .refl _⟩).mono ?_
  rintro a b ⟨h1, h2, h3⟩
  refine ⟨h1.erase, h3, fun hn => h1.perm ?_⟩
  rw [h2, hobj]
  exact hn

section Examples
open Witness

/-- The hypotheses are met: the sphere function has no state and a mixture of parallel and
sequential calls completes. -/
example : Stateless sphere.f ∧
    ((CMAES.create (wenv 2) World.init sphere opts).applyAll (wenv 2)
      [.next .par, .printInfo, .next .seq, .next .par]).check
      (fun x => x.1.generation == 3 && x.2.length == 4) = true :=
  ⟨fun _ _ => rfl, by decide +kernel⟩

/-- With state the claim is false: a function that counts its calls is evaluated in another order,
and the points get other values. -/
def callCounter : Obj 2 F64 := { f := fun log _ => Flt.ofNat log.length, log := [] }

example :
    (((CMAES.create (wenv 2) World.init callCounter opts).next (wenv 2) .seq).check fun x =>
      ((CMAES.create (wenv 2) World.init callCounter opts).next (wenv 2) .par).check fun y =>
        !(x.1.mean.beq y.1.mean)) = true := by decide +kernel

end Examples

end Cmaes
