import Verif.Spec.Causal
import Verif.Lemmas.Draws
import Verif.Lemmas.Next

/-!
# The state of the generator is used to draw points and for nothing else
-/

set_option linter.unusedSectionVars false

namespace Cmaes
variable {n : Nat} {F R : Type} [Flt F]

theorem vector_congr {rng rng' : RngOps R F} {r r' : R} {j N : Nat}
    (h : ∀ k < N, rng'.draw r' k = rng.draw r k) (hj : (j + 1) * n ≤ N) :
    rng'.vector (n := n) r' j = rng.vector r j := by
  funext i
  refine h _ ?_
  have := i.isLt
  rw [Nat.succ_mul] at hj
  omega

/-- The resampling loop depends only on the numbers that it draws. -/
theorem resample_causal {rng : RngOps R F} {T : Mat n F} {mean : Vec n F} {sigma : F}
    {cs : Option (Constraint F)} {mx : Option Nat} {pop fuel i : Nat} {y ys : List (Vec n F)}
    {r r1 : R} {k : Nat}
    (h : resample rng T mean sigma cs mx pop fuel i y (rng.after r (k * n)) = .ok (ys, r1)) :
    ∃ k', k ≤ k' ∧ r1 = rng.after r (k' * n) ∧ (cs = none → k' = k + (pop - y.length)) ∧
      ∀ (rng' : RngOps R F) (r' : R), (∀ j < k' * n, rng'.draw r' j = rng.draw r j) →
        resample rng' T mean sigma cs mx pop fuel i y (rng'.after r' (k * n)) =
          .ok (ys, rng'.after r' (k' * n)) := by
  induction fuel generalizing i y k with
  | zero => simp [resample] at h
  | succ fuel ih =>
    simp only [resample] at h
    by_cases h0 : pop < y.length
    · simp [h0] at h
    rw [if_neg h0] at h
    by_cases h1 : pop - y.length = 0
    · rw [if_pos h1] at h
      injection h with h
      injection h with e1 e2
      refine ⟨k, le_rfl, e2.symm, fun _ => by omega, fun rng' r' _ => ?_⟩
      simp only [resample]
      rw [if_neg h0, if_pos h1, e1]
    · rw [if_neg h1] at h
      simp only [Outcome.bind_eq_ok, sampleRound, drawVecs_stream, Outcome.ok.injEq] at h
      obtain ⟨⟨new, r2⟩, ⟨new', hf, e⟩, h⟩ := h
      injection e with e1 e2
      subst e1 e2
      obtain ⟨k', a1, a2, a3, a4⟩ := ih h
      refine ⟨k', by omega, a2, ?_, fun rng' r' hr => ?_⟩
      · intro hc
        have e := a3 hc
        subst hc
        have hf' : filterOk (fun _ => .ok true)
            (List.map T.mulVec (List.map (rng.vector r) (List.range' k (pop - y.length)))) =
              .ok new' := by
          cases mx with
          | none => exact hf
          | some m => simp only [ite_self] at hf; exact hf
        have hl : new'.length = pop - y.length := by
          have key : ∀ l : List (Vec n F), filterOk (fun _ => .ok true) l = .ok l := by
            intro l
            induction l with
            | nil => rfl
            | cons a l ih => simp [filterOk, ih]
          rw [key] at hf'
          injection hf' with hf'
          rw [← hf']
          simp
        rw [e, List.length_append, hl]
        omega
      · have e : List.map (rng'.vector (n := n) r') (List.range' k (pop - y.length)) =
            List.map (rng.vector r) (List.range' k (pop - y.length)) := by
          refine List.map_congr_left fun j hj => vector_congr hr (Nat.mul_le_mul_right n ?_)
          have := List.mem_range'_1.mp hj
          omega
        simp only [resample]
        rw [if_neg h0, if_neg h1]
        simp only [Outcome.bind_eq_ok, sampleRound, drawVecs_stream, Outcome.ok.injEq]
        exact ⟨(new', _), ⟨new', by rw [e]; exact hf, rfl⟩, a4 rng' r' hr⟩

section
variable {env : Env n F R} {rng' : RngOps R F} {r' : R}

/-- The result with another state of the generator. -/
def Outcome.withGenerator {α : Type} (r' : R) (x : Outcome (CMAES n F R × α)) :
    Outcome (CMAES n F R × α) :=
  x >>= fun (c, a) => .ok (c.withGenerator r', a)

theorem autoPlot_withGenerator (c : CMAES n F R) :
    (c.withGenerator r').autoPlot = (c.autoPlot >>= fun d => .ok (d.withGenerator r')) := by
  unfold CMAES.autoPlot
  have e : (c.withGenerator r').plot = c.plot := rfl
  rw [e]
  cases c.plot with
  | none => rfl
  | some p =>
    show (if c.state.generation ≤ 1 then _ else _) = _
    by_cases hg : c.state.generation ≤ 1
    · simp only [if_pos hg]; rfl
    · simp only [if_neg hg]
      cases p.nextDataPointEvals with
      | ok m =>
        simp only [Outcome.ok_bind]
        show Outcome.ok (if m ≤ c.sampler.functionEvals then _ else _) = _
        by_cases hm : m ≤ c.sampler.functionEvals
        · simp only [if_pos hm]; rfl
        · simp only [if_neg hm]
      | panic => rfl
      | diverge => rfl

theorem autoPrint_withGenerator (c : CMAES n F R) :
    (c.withGenerator r').autoPrint = (c.autoPrint >>= fun d => .ok (d.withGenerator r')) := by
  unfold CMAES.autoPrint
  have e : (c.withGenerator r').printGapEvals = c.printGapEvals := rfl
  rw [e]
  cases c.printGapEvals with
  | none => rfl
  | some gap =>
    have e2 : (c.withGenerator r').lastPrintEvals = c.lastPrintEvals := rfl
    simp only [e2]
    cases usizeAdd c.lastPrintEvals gap with
    | ok m =>
      simp only [Outcome.ok_bind]
      show Outcome.ok (if m ≤ c.sampler.functionEvals then _ else
        if c.state.generation < 4 then _ else _) = _
      by_cases hm : m ≤ c.sampler.functionEvals
      · simp only [if_pos hm]; rfl
      · simp only [if_neg hm]
        by_cases hg : c.state.generation < 4
        · simp only [if_pos hg]; rfl
        · simp only [if_neg hg]
    | panic => rfl
    | diverge => rfl

theorem checkTermination_withGenerator (inds : List (EvaluatedPoint n F)) (c : CMAES n F R) :
    (c.withGenerator r').checkTermination (env.withRng rng') inds =
      (c.checkTermination env inds).withGenerator r' := by
  unfold CMAES.checkTermination Outcome.withGenerator
  by_cases ht : c.parameters.termination.maxTime.isSome
  · have ht' : (c.withGenerator r').parameters.termination.maxTime.isSome := ht
    simp only [if_pos ht, if_pos ht']
    generalize hx : TerminationCheck.check env.medianNaN _ = x
    have hx' : TerminationCheck.check (env.withRng rng').medianNaN
        { evals := (c.withGenerator r').sampler.functionEvals
          elapsed := (World.now (env.withRng rng') (c.withGenerator r').world).1 - (c.withGenerator r').timeCreated
          parameters := (c.withGenerator r').parameters, state := (c.withGenerator r').state
          history := (c.withGenerator r').history, individuals := inds } = x := hx
    rw [hx']
    cases x <;> rfl
  · have ht' : ¬ (c.withGenerator r').parameters.termination.maxTime.isSome := ht
    simp only [if_neg ht, if_neg ht']
    generalize hx : TerminationCheck.check env.medianNaN _ = x
    have hx' : TerminationCheck.check (env.withRng rng').medianNaN
        { evals := (c.withGenerator r').sampler.functionEvals
          elapsed := (c.withGenerator r').timeCreated - (c.withGenerator r').timeCreated
          parameters := (c.withGenerator r').parameters, state := (c.withGenerator r').state
          history := (c.withGenerator r').history, individuals := inds } = x := hx
    rw [hx']
    cases x <;> rfl

theorem nextInternal_withGenerator (tree : SplitTree) (inds : List (EvaluatedPoint n F))
    (c : CMAES n F R) :
    (c.withGenerator r').nextInternal (env.withRng rng') tree inds =
      (c.nextInternal env tree inds).withGenerator r' := by
  unfold CMAES.nextInternal
  show (c.state.update env.eigen tree c.sampler.functionEvals c.parameters inds >>= _) = _
  unfold Outcome.withGenerator
  cases c.state.update env.eigen tree c.sampler.functionEvals c.parameters inds with
  | panic => rfl
  | diverge => rfl
  | ok a =>
    obtain ⟨st, success⟩ := a
    cases success with
    | false => rfl
    | true =>
      simp only [Outcome.ok_bind, if_true]
      show ((({ c with state := st } : CMAES n F R).withGenerator r').autoPlot >>= _) = _
      rw [autoPlot_withGenerator]
      cases ({ c with state := st } : CMAES n F R).autoPlot with
      | panic => rfl
      | diverge => rfl
      | ok c1 =>
        simp only [Outcome.ok_bind]
        rw [autoPrint_withGenerator]
        cases c1.autoPrint with
        | panic => rfl
        | diverge => rfl
        | ok c2 =>
          simp only [Outcome.ok_bind]
          exact checkTermination_withGenerator inds c2

/-- A `next` call with another generator that gives the same steps does the same. -/
theorem next_withGenerator {kind : EvalKind} {c d : CMAES n F R}
    {res : Option (TerminationData n F)} {ys : List (Vec n F)} {r1 : R} {s' : R}
    (h : c.next env kind = .ok (d, res)) (hd : drawnSteps env c = .ok (ys, r1))
    (hd' : drawnSteps (env.withRng rng') (c.withGenerator r') = .ok (ys, s')) :
    (c.withGenerator r').next (env.withRng rng') kind = .ok (d.withGenerator s', res) := by
  unfold CMAES.next Sampler.sample at h ⊢
  unfold drawnSteps at hd hd'
  rw [hd] at h
  rw [hd']
  simp only [Outcome.ok_bind] at h ⊢
  have key : ∀ x : Option (List (EvaluatedPoint n F)) × Obj n F,
      ((match x.1 with
        | none => Outcome.ok (none, { c.sampler with rng := r1, obj := x.2 })
        | some ps => .ok (some (sortPoints c.parameters.mode ps),
            { c.sampler with rng := r1, obj := x.2
                             functionEvals := c.sampler.functionEvals + ps.length })) >>= fun y =>
        match y.1 with
        | none => .ok ({ c with sampler := y.2, world := { c.world with steps := c.world.steps + 1 } },
            some (({ c with sampler := y.2,
                            world := { c.world with steps := c.world.steps + 1 } } :
              CMAES n F R).terminationData [.invalidFunctionValue]))
        | some inds => (c.history.update c.parameters.mode inds) >>= fun history =>
            CMAES.nextInternal env (env.redTree c.world.steps) inds
              { c with sampler := y.2, world := { c.world with steps := c.world.steps + 1 }, history })
        = .ok (d, res) →
      ((match x.1 with
        | none => Outcome.ok (none, { c.sampler with rng := s', obj := x.2 })
        | some ps => .ok (some (sortPoints c.parameters.mode ps),
            { c.sampler with rng := s', obj := x.2
                             functionEvals := c.sampler.functionEvals + ps.length })) >>= fun y =>
        match y.1 with
        | none => .ok ({ c with sampler := y.2, world := { c.world with steps := c.world.steps + 1 } },
            some (({ c with sampler := y.2,
                            world := { c.world with steps := c.world.steps + 1 } } :
              CMAES n F R).terminationData [.invalidFunctionValue]))
        | some inds => (c.history.update c.parameters.mode inds) >>= fun history =>
            CMAES.nextInternal (env.withRng rng') (env.redTree c.world.steps) inds
              { c with sampler := y.2, world := { c.world with steps := c.world.steps + 1 }, history })
        = .ok (d.withGenerator s', res) := by
    rintro ⟨x, ob⟩ hx
    cases x with
    | none =>
      simp only [Outcome.ok_bind, Outcome.ok.injEq, Prod.mk.injEq] at hx ⊢
      obtain ⟨rfl, rfl⟩ := hx
      exact ⟨rfl, rfl⟩
    | some ps =>
      simp only [Outcome.ok_bind, Outcome.bind_eq_ok] at hx ⊢
      obtain ⟨hist, h1, h2⟩ := hx
      refine ⟨hist, h1, ?_⟩
      have := nextInternal_withGenerator (env := env) (rng' := rng') (r' := s')
        (env.redTree c.world.steps) (sortPoints c.parameters.mode ps)
        { c with
          sampler := { c.sampler with rng := r1, obj := ob
                                      functionEvals := c.sampler.functionEvals + ps.length }
          world := { c.world with steps := c.world.steps + 1 }
          history := hist }
      rw [h2] at this
      exact this
  cases kind with
  | seq => exact key _ h
  | par => exact key _ h

/-- So does a quiet operation. -/
theorem apply_withGenerator {op : Op} (hq : op.Quiet) {c d : CMAES n F R}
    {res : Option (TerminationData n F)} (h : c.apply env op = .ok (d, res)) :
    (c.withGenerator r').apply (env.withRng rng') op = .ok (d.withGenerator r', res) := by
  cases op with
  | next _ => exact hq.elim
  | run _ => exact hq.elim
  | addPlotPoint =>
    simp only [CMAES.apply, Outcome.ok.injEq, Prod.mk.injEq] at h ⊢
    obtain ⟨rfl, rfl⟩ := h
    exact ⟨rfl, rfl⟩
  | clearPlot =>
    simp only [CMAES.apply, CMAES.clearPlot, Outcome.bind_eq_ok, Outcome.ok.injEq,
      Prod.mk.injEq] at h ⊢
    obtain ⟨c1, h1, rfl, rfl⟩ := h
    refine ⟨c1.withGenerator r', ?_, rfl, rfl⟩
    have e : (c.withGenerator r').plot = c.plot := rfl
    rw [e]
    split at h1
    · injection h1 with h1; subst h1
      rfl
    · simp only [Outcome.bind_eq_ok, Outcome.ok.injEq] at h1 ⊢
      obtain ⟨p', h2, rfl⟩ := h1
      exact ⟨p', h2, rfl⟩
  | printInitialInfo =>
    simp only [CMAES.apply, Outcome.ok.injEq, Prod.mk.injEq] at h ⊢
    obtain ⟨rfl, rfl⟩ := h
    exact ⟨rfl, rfl⟩
  | printInfo =>
    simp only [CMAES.apply, Outcome.ok.injEq, Prod.mk.injEq] at h ⊢
    obtain ⟨rfl, rfl⟩ := h
    exact ⟨rfl, rfl⟩
  | printRunInfo k =>
    simp only [CMAES.apply, Outcome.ok.injEq, Prod.mk.injEq] at h ⊢
    obtain ⟨rfl, rfl⟩ := h
    exact ⟨rfl, rfl⟩
  | printFinalInfo rs =>
    simp only [CMAES.apply, Outcome.ok.injEq, Prod.mk.injEq] at h ⊢
    obtain ⟨rfl, rfl⟩ := h
    refine ⟨?_, rfl⟩
    unfold CMAES.printFinalInfo
    by_cases he : c.sampler.functionEvals ≠ c.lastPrintEvals
    · have he' : (c.withGenerator r').sampler.functionEvals ≠ (c.withGenerator r').lastPrintEvals := he
      simp only [if_pos he, if_pos he']
      rfl
    · have he' : ¬ (c.withGenerator r').sampler.functionEvals ≠ (c.withGenerator r').lastPrintEvals :=
        he
      simp only [if_neg he, if_neg he']
      rfl

end

end Cmaes
