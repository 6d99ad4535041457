import Verif.Props.Best
import Verif.Lemmas.Resample

/-!
# C07 - C11: sampling a generation
-/

set_option linter.unusedSectionVars false

namespace Cmaes
variable {n : Nat} {F R : Type} [Flt F] [FltLaws F]
open FltLaws

section
variable {env : Env n F R} {obj : Obj n F} {o : Options n F} {t : List (NextCall n F)}
  {c c' : CMAES n F R} {kind : EvalKind} {r : Option (TerminationData n F)}
  {calls : List (Vec n F × F)} {k : Constraint F} {m : Nat}

/-- The last `next` of an execution. -/
theorem Exec.last_next {c0 : CMAES n F R} {s : NextCall n F} (h : Exec env c0 (t ++ [s]) c) :
    ∃ c1 c2, Exec env c0 t c1 ∧ c1.next env s.kind = .ok (c2, s.result) ∧
      c2.sampler.obj.log = c1.sampler.obj.log ++ s.calls ∧ Exec env c2 [] c := by
  generalize ht : t ++ [s] = u at h
  induction h with
  | refl => simp at ht
  | quiet _ hq ha ih =>
    obtain ⟨c1, c2, h1, h2, h3, h4⟩ := ih ht
    exact ⟨c1, c2, h1, h2, h3, .quiet h4 hq ha⟩
  | @next c' c'' t' kind calls r hx hn hl ih =>
    obtain ⟨ht1, ht2⟩ := List.append_inj' ht rfl
    simp only [List.cons.injEq, and_true] at ht2
    subst ht1 ht2
    exact ⟨c', c'', hx, hn, hl, .refl _⟩

/-- Every recorded call was made from a state of the same execution. -/
theorem History.Of.next_of_mem {s : NextCall n F} (h : History.Of env obj o t c) (hs : s ∈ t) :
    ∃ t1 t2 c1 c2, t = t1 ++ s :: t2 ∧ History.Of env obj o t1 c1 ∧
      c1.next env s.kind = .ok (c2, s.result) ∧
      c2.sampler.obj.log = c1.sampler.obj.log ++ s.calls ∧ Exec env c2 t2 c := by
  obtain ⟨t1, t2, rfl⟩ := List.append_of_mem hs
  obtain ⟨w, c0, h0, he⟩ := h
  rw [show t1 ++ s :: t2 = (t1 ++ [s]) ++ t2 by simp] at he
  obtain ⟨c3, h1, h2⟩ := he.split
  obtain ⟨c1, c2, h3, h4, h5, h6⟩ := h1.last_next
  exact ⟨t1, t2, c1, c2, rfl, ⟨w, c0, h0, h3⟩, h4, h5, by simpa using h6.trans h2⟩

/-! ### C07 -/

/-- **C07, no limit.** With constraints and `max_resamples = None` every point on which the
objective function is called satisfies the constraints. -/
theorem c07_unlimited (h : History.Of env obj o t c) (hk : o.constraints = some k)
    (hm : o.maxResamples = none) : ∀ e ∈ allCalls t, k (List.ofFn e.1) = .ok true := by
  intro e he
  obtain ⟨s, hs, he⟩ := List.mem_flatMap.mp he
  obtain ⟨t1, t2, c1, c2, _, h1, hn, hl, _⟩ := h.next_of_mem hs
  obtain ⟨gs, i, _⟩ := fresh_inv h1
  obtain ⟨ys, hd, hsub, _⟩ := next_points hn hl
  have hem : e.1 ∈ ys.map (fun y => toPoint y c1.state.mean c1.state.sigma) :=
    hsub.subset (List.mem_map_of_mem he)
  obtain ⟨y, hy, hye⟩ := List.mem_map.mp hem
  unfold drawnSteps at hd
  rw [i.constraints, i.maxResamples, hk, hm] at hd
  obtain ⟨j, hj, _⟩ := resample_unlimited (i := 0) (r0 := c1.sampler.rng) rfl hd
  rw [← hye]
  have hys : ys = (acceptedRounds env.rng c1.state.cov.transform c1.state.mean c1.state.sigma k
      c1.sampler.populationSize j c1.sampler.rng).1 := by rw [← hj]
  rw [hys] at hy
  exact acceptedRounds_ok j _ y hy

/-- **C07, with a limit.** If the next generation calls the objective on a point that does not
satisfy the constraints, then the first `m` rounds of sampling found fewer than `population_size`
acceptable points, and at most as many violating points are evaluated as were missing. -/
theorem c07_limited (h : History.Of env obj o t c) (hk : o.constraints = some k)
    (hm : o.maxResamples = some m) (hn : c.next env kind = .ok (c', r))
    (hl : c'.sampler.obj.log = c.sampler.obj.log ++ calls) :
    let found := (acceptedRounds env.rng c.state.cov.transform c.mean c.sigma k o.populationSize m
      c.sampler.rng).1.length
    ((∃ e ∈ calls, k (List.ofFn e.1) ≠ .ok true) → found < o.populationSize) ∧
    (calls.filter fun e => decide (k (List.ofFn e.1) ≠ .ok true)).length ≤
      o.populationSize - found := by
  obtain ⟨gs, i, _⟩ := fresh_inv h
  obtain ⟨ys, hd, hsub, _⟩ := next_points hn hl
  unfold drawnSteps at hd
  rw [i.constraints, i.maxResamples, i.populationSize, hk, hm] at hd
  have hys := resample_limited (i := 0) (r0 := c.sampler.rng) (Nat.zero_le m) rfl hd
  set A := acceptedRounds env.rng c.state.cov.transform c.state.mean c.state.sigma k
    o.populationSize m c.sampler.rng with hA
  have hAok : ∀ y ∈ A.1, k (List.ofFn (toPoint y c.state.mean c.state.sigma)) = .ok true :=
    acceptedRounds_ok m _
  have hcount : (calls.filter fun e => decide (k (List.ofFn e.1) ≠ .ok true)).length ≤
      o.populationSize - A.1.length := by
    have h1 : (calls.filter fun e => decide (k (List.ofFn e.1) ≠ .ok true)).length =
        ((calls.map Prod.fst).filter fun x => decide (k (List.ofFn x) ≠ .ok true)).length := by
      rw [List.filter_map, List.length_map]; rfl
    rw [h1]
    refine (hsub.filter _).length_le.trans ?_
    have hys1 : ys = A.1 ++ (drawVecs env.rng (o.populationSize - A.1.length) A.2).1.map
        c.state.cov.transform.mulVec := by
      have := congrArg Prod.fst hys
      simpa [limitedSteps_eq, ← hA] using this
    rw [hys1, List.map_append, List.filter_append]
    have h0 : (A.1.map fun y => toPoint y c.state.mean c.state.sigma).filter
        (fun x => decide (k (List.ofFn x) ≠ .ok true)) = [] := by
      rw [List.filter_eq_nil_iff]
      intro x hx
      obtain ⟨y, hy, rfl⟩ := List.mem_map.mp hx
      simp [hAok y hy]
    rw [h0, List.nil_append]
    refine (List.length_filter_le _ _).trans ?_
    rw [List.length_map, List.length_map, drawVecs_length]
  refine ⟨?_, hcount⟩
  rintro ⟨e, he, hv⟩
  have hpos : 0 < (calls.filter fun e => decide (k (List.ofFn e.1) ≠ .ok true)).length :=
    List.length_pos_of_mem (List.mem_filter.mpr ⟨he, by simpa using hv⟩)
  have : 0 < o.populationSize - A.1.length := lt_of_lt_of_le hpos hcount
  show A.1.length < o.populationSize
  omega

/-! ### C08 -/

/-- **C08, with a limit.** With `max_resamples = Some(m)` and constraints that do not panic the
resampling loop ends whatever they reject, with exactly the steps of `m` constrained rounds and one
unconstrained round (`m + 1` rounds are made at most: `m + 2` passes of the loop are enough, and
the last pass draws nothing), and there are `population_size` of them. -/
theorem c08_limited {rng : RngOps R F} {T : Mat n F} {mean : Vec n F} {sigma : F} {pop fuel : Nat}
    {s : R} (hk : ∀ x : Vec n F, ∃ b, k (List.ofFn x) = .ok b) (hf : m + 2 ≤ fuel) :
    resample rng T mean sigma (some k) (some m) pop fuel 0 [] s =
        .ok (limitedSteps rng T mean sigma k pop m s) ∧
      (limitedSteps rng T mean sigma k pop m s).1.length = pop :=
  ⟨resample_limited_total hk (Nat.zero_le _) hf rfl, limitedSteps_length m s⟩

/-- **C08, without constraints.** A single round is made. -/
theorem c08_unconstrained {rng : RngOps R F} {T : Mat n F} {mean : Vec n F} {sigma : F}
    {mx : Option Nat} {pop fuel : Nat} {s : R} (hf : 2 ≤ fuel) :
    resample rng T mean sigma none mx pop fuel 0 [] s =
        .ok (nextSteps rng T pop s, rng.after s (pop * n)) ∧
      (nextSteps rng T pop s).length = pop := by
  rw [resample_unconstrained hf, drawVecs_steps, drawVecs_rng]
  exact ⟨rfl, by simp [nextSteps]⟩

/-- **C08, no underflow.** Whatever the limit, the number of passes and the random stream, the loop
does not panic if the constraints do not, and delivers exactly `population_size` steps when it
ends. -/
theorem c08_no_underflow {rng : RngOps R F} {T : Mat n F} {mean : Vec n F} {sigma : F}
    {cs : Option (Constraint F)} {mx : Option Nat} {pop fuel : Nat} {s : R}
    (hk : ∀ k, cs = some k → ∀ x : Vec n F, ∃ b, k (List.ofFn x) = .ok b) :
    (∀ p, resample rng T mean sigma cs mx pop fuel 0 [] s ≠ .panic p) ∧
    ∀ ys s', resample rng T mean sigma cs mx pop fuel 0 [] s = .ok (ys, s') →
      ys.length = pop :=
  ⟨fun _ => resample_no_panic hk (by simp), fun _ _ h => (resample_eq_ok h).1⟩

/-- **C08 at the API.** With a limit `m`, every sampling from a reachable state ends; if it met no
NaN it delivers `population_size` points for as many objective calls, otherwise it made at most
that many. -/
theorem c08_sample (h : History.Of env obj o t c)
    (hk : ∀ k, o.constraints = some k → ∀ x : Vec n F, ∃ b, k (List.ofFn x) = .ok b) (hm : o.maxResamples = some m)
    (hf : m + 2 ≤ env.resampleFuel) (sched : Sched) :
    ∃ res s' calls, c.sampler.sample env kind sched c.state.cov.transform c.mean c.sigma
        c.parameters.mode = .ok (res, s') ∧
      s'.obj.log = c.sampler.obj.log ++ calls ∧ calls.length ≤ o.populationSize ∧
      ∀ inds, res = some inds →
        inds.length = o.populationSize ∧ calls.length = o.populationSize := by
  obtain ⟨gs, i, _⟩ := fresh_inv h
  have hres : ∃ x, resample env.rng c.state.cov.transform c.state.mean c.state.sigma
      c.sampler.constraints c.sampler.maxResamples c.sampler.populationSize env.resampleFuel 0 []
      c.sampler.rng = .ok x := by
    rw [i.constraints, i.maxResamples, hm]
    cases hc : o.constraints with
    | none => exact ⟨_, resample_unconstrained (by omega)⟩
    | some k => exact ⟨_, (c08_limited (hk k hc) hf).1⟩
  obtain ⟨⟨ys, r'⟩, hr⟩ := hres
  have hs : ∃ x, c.sampler.sample env kind sched c.state.cov.transform c.state.mean c.state.sigma
      c.parameters.mode = .ok x := by
    unfold Sampler.sample
    rw [hr]
    simp only [Outcome.ok_bind]
    split
    · split <;> exact ⟨_, rfl⟩
    · split <;> exact ⟨_, rfl⟩
  obtain ⟨⟨res, s'⟩, hs⟩ := hs
  obtain ⟨_, calls, _, hlog, _, hcase⟩ := sample_cases hs
  refine ⟨res, s', calls, hs, hlog, ?_⟩
  rw [i.populationSize] at hcase
  rcases hcase with ⟨rfl, _, h2, _⟩ | ⟨ps, inds, rfl, h1, _⟩
  · exact ⟨h2, by simp⟩
  · refine ⟨h1.callsLength.le, ?_⟩
    intro inds' hi
    have := Option.some.inj hi
    subst this
    exact ⟨h1.length, h1.callsLength⟩

/-! ### C10, C11 -/

/-- **C10.** A sampling that met no NaN delivers a permutation of the evaluated points with their
values, sorted best first, with equally good points in the order of sampling (`order`, which for
`next` is the order of evaluation), and every point is `mean + sigma * step` for the step recorded
with it. -/
theorem c10_generation {s s' : Sampler n F R} {sched : Sched} {T : Mat n F} {mean : Vec n F}
    {sigma : F} {mode : Mode} {inds : List (EvaluatedPoint n F)}
    (h : s.sample env kind sched T mean sigma mode = .ok (some inds, s'))
    (hl : s'.obj.log = s.obj.log ++ calls) :
    inds.length = s.populationSize ∧
    calls.Perm (inds.map fun p => (p.point, p.value)) ∧
    inds.Pairwise (fun a b => ¬ Better mode b.value a.value) ∧
    (∀ p ∈ inds, Flt.isNaN p.value = false ∧
      ∀ i, p.point i = mean i + sigma * p.unscaledStep i) ∧
    ∃ order : List (EvaluatedPoint n F), order.Perm inds ∧
      (∀ v, inds.filter (fun p => Flt.feq p.value v) =
        order.filter fun p => Flt.feq p.value v) ∧
      (kind = .seq → calls = order.map fun p => (p.point, p.value)) ∧
      (∃ r', resample env.rng T mean sigma s.constraints s.maxResamples s.populationSize
        env.resampleFuel 0 [] s.rng = .ok (order.map fun p => p.unscaledStep, r')) := by
  obtain ⟨ys, calls', hr, hlog, _, hcase⟩ := sample_cases h
  have : calls' = calls := List.append_cancel_left (hlog.symm.trans hl)
  subst this
  rcases hcase with ⟨h1, _⟩ | ⟨ps, inds', h1, hs, hps, _⟩
  · simp at h1
  have := Option.some.inj h1
  subst this
  refine ⟨hs.length, hs.callsPerm, ?_, ?_, ps, hs.indsPerm.symm, ?_, hs.seq, s'.rng, hps ▸ hr⟩
  · refine hs.sorted.imp ?_
    intro a b hab hbet
    exact absurd (better_iff.mp hbet).2.2 (not_lt.mpr hab)
  · intro p hp
    refine ⟨hs.inds_noNaN p hp, fun j => ?_⟩
    rw [hs.point p (hs.mem_inds.mp hp)]
    rfl
  · intro v
    rw [hs.sort]
    exact sortPoints_filter hs.noNaN v

/-- **C10, the update.** The generation described by `c10_generation` is the one that `next` uses
to update the history and the search state. -/
theorem c10_used (hn : c.next env kind = .ok (c', r))
    (hf : ¬ ∃ d, r = some d ∧ .invalidFunctionValue ∈ d.reasons) :
    ∃ inds s' success, c.sampler.sample env kind (env.sched c.world.steps) c.state.cov.transform
        c.mean c.sigma c.parameters.mode = .ok (some inds, s') ∧
      c'.sampler = s' ∧
      c.history.update c.parameters.mode inds = .ok c'.history ∧
      c.state.update env.eigen (env.redTree c.world.steps) c'.functionEvals c.parameters inds =
        .ok (c'.state, success) := by
  unfold CMAES.next at hn
  simp only [Outcome.bind_eq_ok] at hn
  obtain ⟨⟨res, s⟩, hs, h⟩ := hn
  cases res with
  | none =>
    simp only [Outcome.ok.injEq, Prod.mk.injEq] at h
    exact absurd ⟨_, h.2.symm, by simp [CMAES.terminationData]⟩ hf
  | some inds =>
    simp only [Outcome.bind_eq_ok] at h
    obtain ⟨hist, hh, h⟩ := h
    unfold CMAES.nextInternal at h
    simp only [Outcome.bind_eq_ok] at h
    obtain ⟨⟨st, success⟩, hu, h⟩ := h
    cases success with
    | false =>
      simp only [Bool.false_eq_true, if_false, Outcome.ok.injEq, Prod.mk.injEq] at h
      obtain ⟨rfl, _⟩ := h
      exact ⟨inds, s, false, hs, rfl, hh, hu⟩
    | true =>
      simp only [if_true, Outcome.bind_eq_ok] at h
      obtain ⟨c1, hc1, c2, hc2, h⟩ := h
      have ss := ((sameSearch_autoPlot hc1).trans (sameSearch_autoPrint hc2)).trans
        (checkTermination_eq_ok h).1
      have e1 : c'.sampler = s := ss.sampler
      have e2 : c'.state = st := ss.state
      have e3 : c'.history = hist := ss.history
      refine ⟨inds, s, true, hs, e1, e3 ▸ hh, ?_⟩
      rw [e2, CMAES.functionEvals, e1]
      exact hu

/-- **C11.** `next` reports `InvalidFunctionValue` if and only if the objective returned NaN during
this call. It is then the only reason, and the search state, the counters and the best individuals
are what they were; with `next` (not `next_parallel`) the evaluation stopped at the first NaN. This
holds from every state. -/
theorem c11_nan (hn : c.next env kind = .ok (c', r))
    (hl : c'.sampler.obj.log = c.sampler.obj.log ++ calls) :
    ((∃ d, r = some d ∧ .invalidFunctionValue ∈ d.reasons) ↔ ∃ e ∈ calls, Flt.isNaN e.2 = true) ∧
    ((∃ e ∈ calls, Flt.isNaN e.2 = true) →
      (∃ d, r = some d ∧ d.reasons = [.invalidFunctionValue]) ∧
      c'.mean = c.mean ∧ c'.sigma = c.sigma ∧ c'.covarianceMatrix = c.covarianceMatrix ∧
      c'.generation = c.generation ∧ c'.functionEvals = c.functionEvals ∧
      c'.currentBestIndividual = c.currentBestIndividual ∧
      c'.overallBestIndividual = c.overallBestIndividual ∧
      c'.state = c.state ∧ c'.history = c.history ∧
      (kind = .seq → ∃ pre x v, calls = pre ++ [(x, v)] ∧ Flt.isNaN v = true ∧
        ∀ e ∈ pre, Flt.isNaN e.2 = false)) := by
  obtain ⟨calls', _, hlog, _, ys, _, hcase⟩ := next_cases hn
  have : calls' = calls := List.append_cancel_left (hlog.symm.trans hl)
  subst this
  rcases hcase with hf | ⟨ps, inds, hc, _⟩
  · refine ⟨⟨fun _ => hf.nan, fun _ => hf.failed⟩, fun _ => ⟨⟨_, hf.result, rfl⟩, ?_⟩⟩
    simp only [CMAES.mean, CMAES.sigma, CMAES.covarianceMatrix, CMAES.generation,
      CMAES.functionEvals, CMAES.currentBestIndividual, CMAES.overallBestIndividual, hf.state,
      hf.history, hf.evals, true_and]
    exact hf.seq
  · have hno : ¬ ∃ e ∈ calls', Flt.isNaN e.2 = true := by
      rintro ⟨e, he, hv⟩
      rw [hc.sampled.calls_noNaN e he] at hv
      simp at hv
    exact ⟨⟨fun hf => absurd hf hc.not_failed, fun hx => absurd hx hno⟩, fun hx => absurd hx hno⟩

end

/-! ### C09 -/

/-- Coordinate `i` of `x` lies in its closed interval. -/
def Bounds.Inside (b : Bounds F) (x : List F) (i : Nat) : Prop :=
  ∃ lo hi v, b.lower[i]? = some lo ∧ b.upper[i]? = some hi ∧ x[i]? = some v ∧
    Flt.le lo v = true ∧ Flt.le v hi = true

section
variable {b : Bounds F}

omit [FltLaws F] in
theorem meetsFrom_cases (b : Bounds F) (xs : List F) (i : Nat) :
    (b.meetsFrom i xs = .ok true ∧ ∀ j < xs.length, ∃ lo hi v, b.lower[i + j]? = some lo ∧
      b.upper[i + j]? = some hi ∧ xs[j]? = some v ∧ Flt.le lo v = true ∧ Flt.le v hi = true) ∨
    (∃ j < xs.length, (∀ l < j, ∃ lo hi v, b.lower[i + l]? = some lo ∧
      b.upper[i + l]? = some hi ∧ xs[l]? = some v ∧ Flt.le lo v = true ∧ Flt.le v hi = true) ∧
      ((b.meetsFrom i xs = .ok false ∧ ∃ lo v, b.lower[i + j]? = some lo ∧ xs[j]? = some v ∧
        (Flt.le lo v = false ∨
          ∃ hi, b.upper[i + j]? = some hi ∧ Flt.le v hi = false)) ∨
       (b.meetsFrom i xs = .panic .index ∧ (b.lower[i + j]? = none ∨
          ∃ lo v, b.lower[i + j]? = some lo ∧ xs[j]? = some v ∧ Flt.le lo v = true ∧
            b.upper[i + j]? = none)))) := by
  induction xs generalizing i with
  | nil => left; simp [Bounds.meetsFrom]
  | cons x xs ih =>
    simp only [Bounds.meetsFrom]
    cases hlo : b.lower[i]? with
    | none => exact .inr ⟨0, by simp, by simp, .inr ⟨rfl, .inl (by simpa using hlo)⟩⟩
    | some lo =>
      simp only
      by_cases hle : Flt.le lo x = true
      · rw [if_pos hle]
        cases hhi : b.upper[i]? with
        | none =>
          exact .inr ⟨0, by simp, by simp, .inr ⟨rfl, .inr ⟨lo, x, by simpa using hlo, by simp,
            hle, by simpa using hhi⟩⟩⟩
        | some hi =>
          simp only
          by_cases hle2 : Flt.le x hi = true
          · rw [if_pos hle2]
            have head : ∃ lo hi v, b.lower[i + 0]? = some lo ∧ b.upper[i + 0]? = some hi ∧
                (x :: xs)[0]? = some v ∧ Flt.le lo v = true ∧ Flt.le v hi = true :=
              ⟨lo, hi, x, by simpa using hlo, by simpa using hhi, by simp, hle, hle2⟩
            rcases ih (i + 1) with ⟨h1, h2⟩ | ⟨j, hj, h1, h2⟩
            · refine .inl ⟨h1, ?_⟩
              intro j hj
              cases j with
              | zero => exact head
              | succ j =>
                have := h2 j (by simpa using hj)
                rw [show i + 1 + j = i + (j + 1) by omega] at this
                simpa using this
            · refine .inr ⟨j + 1, by simpa using hj, ?_, ?_⟩
              · intro l hl
                cases l with
                | zero => exact head
                | succ l =>
                  have := h1 l (by omega)
                  rw [show i + 1 + l = i + (l + 1) by omega] at this
                  simpa using this
              · rw [show i + 1 + j = i + (j + 1) by omega] at h2
                simpa using h2
          · rw [if_neg hle2]
            exact .inr ⟨0, by simp, by simp, .inl ⟨rfl, lo, x, by simpa using hlo, by simp,
              .inr ⟨hi, by simpa using hhi, by simpa using hle2⟩⟩⟩
      · rw [if_neg hle]
        exact .inr ⟨0, by simp, by simp, .inl ⟨rfl, lo, x, by simpa using hlo, by simp,
          .inl (by simpa using hle)⟩⟩

omit [FltLaws F] in
/-- **C09, acceptance.** `Bounds` accept a point if and only if every coordinate lies in its closed
interval. -/
theorem c09_accepts_iff (b : Bounds F) (x : List F) :
    b.meets x = .ok true ↔ ∀ i < x.length, b.Inside x i := by
  have hc := meetsFrom_cases b x 0
  simp only [Nat.zero_add] at hc
  rcases hc with ⟨h1, h2⟩ | ⟨j, hj, _, h⟩
  · exact ⟨fun _ => h2, fun _ => h1⟩
  · rcases h with ⟨h1, lo, v, hlo, hv, h⟩ | ⟨h1, h⟩
    · refine ⟨fun h' => by simp [Bounds.meets, h1] at h', fun h' => ?_⟩
      obtain ⟨lo', hi', v', e1, e2, e3, e4, e5⟩ := h' j hj
      rw [hlo] at e1; rw [hv] at e3
      have := Option.some.inj e1
      have := Option.some.inj e3
      subst_vars
      rcases h with h | ⟨hi, e, h⟩
      · simp [h] at e4
      · rw [e2] at e
        have := Option.some.inj e
        subst_vars
        simp [h] at e5
    · refine ⟨fun h' => by simp [Bounds.meets, h1] at h', fun h' => ?_⟩
      obtain ⟨lo', hi', v', e1, e2, e3, e4, e5⟩ := h' j hj
      rcases h with h | ⟨_, _, _, _, _, h⟩
      · simp [h] at e1
      · simp [h] at e2

omit [FltLaws F] in
/-- **C09, panic.** A point panics if and only if there is a first coordinate with all earlier
ones inside and no lower bound, or with a lower bound that it meets and no upper bound. The panic is
an index panic. -/
theorem c09_panics_iff (b : Bounds F) (x : List F) :
    (∃ p, b.meets x = .panic p) ↔ ∃ i < x.length, (∀ j < i, b.Inside x j) ∧
      (b.lower[i]? = none ∨ ∃ lo v, b.lower[i]? = some lo ∧ x[i]? = some v ∧
        Flt.le lo v = true ∧ b.upper[i]? = none) := by
  have hc := meetsFrom_cases b x 0
  simp only [Nat.zero_add] at hc
  -- the first coordinate that is not inside is unique
  have uniq : ∀ {i j}, (∀ l < i, b.Inside x l) → ¬ b.Inside x i → (∀ l < j, b.Inside x l) →
      ¬ b.Inside x j → i = j := by
    intro i j h1 h2 h3 h4
    rcases lt_trichotomy i j with h | h | h
    · exact absurd (h3 i h) h2
    · exact h
    · exact absurd (h1 j h) h4
  have nin : ∀ {i}, (b.lower[i]? = none ∨ ∃ lo v, b.lower[i]? = some lo ∧ x[i]? = some v ∧
        Flt.le lo v = true ∧ b.upper[i]? = none) → ¬ b.Inside x i := by
    rintro i (h | ⟨_, _, _, _, _, h⟩) ⟨lo', hi', v', e1, e2, e3, e4, e5⟩
    · simp [h] at e1
    · simp [h] at e2
  rcases hc with ⟨h1, h2⟩ | ⟨j, hj, hin, h⟩
  · refine ⟨fun ⟨p, h'⟩ => by simp [Bounds.meets, h1] at h', ?_⟩
    rintro ⟨i, hi, _, h⟩
    exact absurd (h2 i hi) (nin h)
  · rcases h with ⟨h1, lo, v, hlo, hv, h⟩ | ⟨h1, h⟩
    · refine ⟨fun ⟨p, h'⟩ => by simp [Bounds.meets, h1] at h', ?_⟩
      rintro ⟨i, hi, hin', h'⟩
      have hj' : ¬ b.Inside x j := by
        rintro ⟨lo', hi', v', e1, e2, e3, e4, e5⟩
        rw [hlo] at e1; rw [hv] at e3
        have := Option.some.inj e1
        have := Option.some.inj e3
        subst_vars
        rcases h with h | ⟨hi, e, h⟩
        · simp [h] at e4
        · rw [e2] at e
          have := Option.some.inj e
          subst_vars
          simp [h] at e5
      have := uniq hin' (nin h') hin hj'
      subst this
      rcases h' with h' | ⟨lo', v', e1, e2, e3, e4⟩
      · simp [hlo] at h'
      · rw [hlo] at e1; rw [hv] at e2
        have := Option.some.inj e1
        have := Option.some.inj e2
        subst_vars
        rcases h with h | ⟨hi, e, _⟩
        · simp [h] at e3
        · simp [e4] at e
    · exact ⟨fun _ => ⟨j, hj, hin, h⟩, fun _ => ⟨_, h1⟩⟩

omit [FltLaws F] in
/-- **C09, extra entries.** Entries beyond the dimension of the point are ignored. -/
theorem c09_extra_ignored (b : Bounds F) (x : List F) :
    b.meets x = (Bounds.mk (b.lower.take x.length) (b.upper.take x.length)).meets x := by
  have key : ∀ (xs : List F) (i : Nat), i + xs.length = x.length → b.meetsFrom i xs =
      (Bounds.mk (b.lower.take x.length) (b.upper.take x.length)).meetsFrom i xs := by
    intro xs
    induction xs with
    | nil => intros; rfl
    | cons y ys ih =>
      intro i hi
      have hlt : i < x.length := by simp at hi; omega
      simp only [Bounds.meetsFrom, List.getElem?_take, hlt, if_true]
      rw [ih (i + 1) (by simp at hi; omega)]
  exact key x 0 (by simp)

/-- **C09, NaN.** A NaN coordinate or a NaN bound of a coordinate is never accepted. -/
theorem c09_nan (b : Bounds F) (x : List F) {i : Nat} {v : F} (hi : x[i]? = some v)
    (hnan : Flt.isNaN v = true ∨ (∃ lo, b.lower[i]? = some lo ∧ Flt.isNaN lo = true) ∨
      ∃ hi, b.upper[i]? = some hi ∧ Flt.isNaN hi = true) : b.meets x ≠ .ok true := by
  intro h
  obtain ⟨lo, up, v', e1, e2, e3, e4, e5⟩ := (c09_accepts_iff b x).mp h i
    (List.getElem?_eq_some_iff.mp hi).1
  rw [hi] at e3
  have := Option.some.inj e3
  subst this
  rw [le_iff] at e4 e5
  rcases hnan with h | ⟨lo', h1, h2⟩ | ⟨up', h1, h2⟩
  · simp [h] at e4
  · rw [h1] at e1
    have := Option.some.inj e1
    subst this
    simp [h2] at e4
  · rw [h1] at e2
    have := Option.some.inj e2
    subst this
    simp [h2] at e5

/-- **C09, order.** For numbers other than NaN the comparisons of the two theorems above are those
of the (extended) real values. -/
theorem c09_order {lo v : F} (h : Flt.isNaN lo = false) (h' : Flt.isNaN v = false) :
    Flt.le lo v = true ↔ val lo ≤ val v := by
  rw [le_iff]; simp [h, h']

end

/-! ### The hypotheses are met by real executions -/

section
open Witness
set_option maxRecDepth 100000

/-- The unit box scaled by ten. -/
def Witness.box : Bounds F64 :=
  { lower := [0, 0], upper := [Flt.ofRat 3, Flt.ofRat 3] }

/-- Constrained options without a limit. -/
def Witness.boxOpts (m : Option Nat) : Options 2 F64 :=
  { opts with constraints := some box.meets, maxResamples := m }

/-- Some draws are rejected (the generator is further on than after four plain draws), and a
generation is completed. -/
example : ∃ t c, History.Of (wenv 2) sphere (boxOpts none) t c ∧
    (decide (t.length = 1) && decide (c.functionEvals = 4) && decide (c.sampler.rng > 9)) = true :=
  exists_history [.seq] _ (by decide +kernel) (by decide +kernel)

/-- With a limit of one round a violating point is evaluated. -/
example : ∃ t c, History.Of (wenv 2) sphere (boxOpts (some 1)) t c ∧
    (decide (t.length = 1) && (allCalls t).any fun e =>
      decide (box.meets (List.ofFn e.1) = .ok false)) = true :=
  exists_history [.par] _ (by decide +kernel) (by decide +kernel)

/-- A failed sequential `next` stops early, a parallel one need not. -/
example : ∃ t c, History.Of (wenv 2) nanAtSix opts t c ∧
    (decide (t.map (fun s => s.calls.length) = [4, 2, 4])) = true :=
  exists_history [.seq, .seq, .seq] _ opts_valid (by decide +kernel)
example : ∃ t c, History.Of (wenv 2) nanAtSix opts t c ∧
    (decide (t.map (fun s => s.calls.length) = [4, 3])) = true :=
  exists_history [.seq, .par] _ opts_valid (by decide +kernel)

/-- `Bounds` accept, reject and panic. -/
example : box.meets [0, Flt.ofRat 3] = .ok true := by decide +kernel
example : box.meets [0, Flt.ofRat 4] = .ok false := by decide +kernel
example : box.meets [0, 0, 0] = .panic .index := by decide +kernel
example : box.meets [0, Flt.ofRat 4, 0] = .ok false := by decide +kernel
end

end Cmaes
