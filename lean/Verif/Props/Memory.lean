import Verif.Lemmas.Memory
import Verif.Lemmas.Resample
import Verif.Lemmas.Exec
import Verif.Props.Best
import Verif.Props.NoPanic
import Verif.Lemmas.Simulation
import Verif.Witness

/-!
# C101: constraints with memory
-/

set_option linter.unusedSectionVars false

namespace Cmaes
variable {n : Nat} {F R : Type} [Flt F] {env : Env n F R} {a : Asking n F}

/-! ### A search without constraint that does the same -/

theorem next_replay {kind : EvalKind} {s s' : SearchM n F R} {r : Option (TerminationData n F)}
    (ha : AnswersOf a.k s.asked) (h : s.next env a kind = .ok (s', r)) :
    AnswersOf a.k s'.asked ∧ ∃ (zs : List (Vec n F)) (qs : List (Vec n F × Bool))
        (extra : List (Vec n F)), zs.length = s.search.sampler.populationSize ∧
      (∀ l0 rest, (s.search.replay (zs.flatMap List.ofFn ++ rest)).next (env.replay l0) kind =
        .ok (s'.search.replay rest, r)) ∧
      s'.asked = s.asked ++ qs ∧
      ((zs.map s.search.state.cov.transform.mulVec).map
        (toPoint · s.search.state.mean s.search.state.sigma)).Perm (acceptedPoints qs ++ extra) ∧
      ((∀ i m, a.order s.search.world.steps i m = List.range m) →
        (zs.map s.search.state.cov.transform.mulVec).map
          (toPoint · s.search.state.mean s.search.state.sigma) = acceptedPoints qs ++ extra) ∧
      (extra ≠ [] → ∃ m, s.search.sampler.maxResamples = some m) ∧
      (∀ m, s.search.sampler.maxResamples = some m →
        qs.length ≤ m * s.search.sampler.populationSize) := by
  unfold SearchM.next at h
  simp only [Outcome.bind_eq_ok] at h
  obtain ⟨⟨ys, rng, asked⟩, h1, ⟨c, r'⟩, h2, h⟩ := h
  simp only [Outcome.ok.injEq, Prod.mk.injEq] at h h2
  obtain ⟨rfl, rfl⟩ := h
  obtain ⟨b1, zs, qs, extra, b2, b3, b4, b5, b6, b7, b8⟩ :=
    resampleM_spec ha (a.perm s.search.world.steps) h1
  rw [List.nil_append] at b2
  subst b2
  rw [List.length_map] at b3
  refine ⟨b1, zs, qs, extra, b3, ?_, b4, b5, b6, b7, b8⟩
  intro l0 rest
  rw [next_eq_nextWith]
  have e := resample_replay l0 s.search.state.cov.transform s.search.state.mean
    s.search.state.sigma s.search.sampler.maxResamples env.resampleFuel zs rest
  rw [b3] at e
  have e' : resample (env.replay l0).rng (s.search.replay (zs.flatMap List.ofFn ++ rest)).state.cov.transform
      (s.search.replay (zs.flatMap List.ofFn ++ rest)).state.mean
      (s.search.replay (zs.flatMap List.ofFn ++ rest)).state.sigma
      (s.search.replay (zs.flatMap List.ofFn ++ rest)).sampler.constraints
      (s.search.replay (zs.flatMap List.ofFn ++ rest)).sampler.maxResamples
      (s.search.replay (zs.flatMap List.ofFn ++ rest)).sampler.populationSize
      (env.replay l0).resampleFuel 0 []
      (s.search.replay (zs.flatMap List.ofFn ++ rest)).sampler.rng =
      .ok (zs.map s.search.state.cov.transform.mulVec, rest) := e
  rw [e', Outcome.ok_bind]
  have f := nextWith_recast (env := env) (k := none) (l := rest) (g := replayRng l0)
    (g' := replayRng l0) (fuel := env.resampleFuel + 2) kind
    (zs.map s.search.state.cov.transform.mulVec) rng s.search (zs.flatMap List.ofFn ++ rest)
  rw [h2, Outcome.ok_bind] at f
  exact f

theorem runLoop_replay {kind : EvalKind} (fuel : Nat) {s s' : SearchM n F R}
    {d : TerminationData n F} (ha : AnswersOf a.k s.asked)
    (h : s.runLoop env a kind fuel = .ok (s', d)) :
    AnswersOf a.k s'.asked ∧ ∃ l, ∀ l0 rest,
      (s.search.replay (l ++ rest)).runLoop (env.replay l0) kind fuel =
        .ok (s'.search.replay rest, d) := by
  induction fuel generalizing s with
  | zero => simp [SearchM.runLoop] at h
  | succ fuel ih =>
    simp only [SearchM.runLoop, Outcome.bind_eq_ok] at h
    obtain ⟨⟨s1, r⟩, h1, h⟩ := h
    obtain ⟨a1, zs, _, _, _, h2, _⟩ := next_replay ha h1
    cases r with
    | some d' =>
      simp only [Outcome.ok.injEq, Prod.mk.injEq] at h
      obtain ⟨rfl, rfl⟩ := h
      refine ⟨a1, zs.flatMap List.ofFn, fun l0 rest => ?_⟩
      simp only [CMAES.runLoop, h2, Outcome.ok_bind]
    | none =>
      obtain ⟨a2, l, h3⟩ := ih a1 h
      refine ⟨a2, zs.flatMap List.ofFn ++ l, fun l0 rest => ?_⟩
      rw [List.append_assoc]
      simp only [CMAES.runLoop, h2, Outcome.ok_bind]
      exact h3 l0 rest

theorem runInternal_recast {R' : Type} (k : Option (Constraint F)) (l : R') (c : CMAES n F R)
    (d : TerminationData n F) :
    (c.recast k l).runInternal d = (c.runInternal d).recast k l := by
  unfold CMAES.runInternal
  dsimp only
  have e : (c.recast k l).addPlotPoint = c.addPlotPoint.recast k l := rfl
  rw [e]
  by_cases h : c.addPlotPoint.printGapEvals.isSome
  · have h' : (c.addPlotPoint.recast k l).printGapEvals.isSome := h
    rw [if_pos h, if_pos h']
    exact printFinalInfo_recast c.addPlotPoint d.reasons
  · have h' : ¬ (c.addPlotPoint.recast k l).printGapEvals.isSome := h
    rw [if_neg h, if_neg h']

theorem runInternal_replay (l : List F) (c : CMAES n F R) (d : TerminationData n F) :
    (c.replay l).runInternal d = (c.runInternal d).replay l := runInternal_recast none l c d

theorem applyM_replay {op : Op} {s s' : SearchM n F R} {r : Option (TerminationData n F)}
    (ha : AnswersOf a.k s.asked) (h : s.apply env a op = .ok (s', r)) :
    AnswersOf a.k s'.asked ∧ ∃ l, ∀ l0 rest,
      (s.search.replay (l ++ rest)).apply (env.replay l0) op = .ok (s'.search.replay rest, r) := by
  have quiet : op.Quiet → (s.search.apply env op >>= fun q =>
      .ok (({ s with search := q.1 } : SearchM n F R), q.2)) = .ok (s', r) →
      AnswersOf a.k s'.asked ∧ ∃ l, ∀ l0 rest,
      (s.search.replay (l ++ rest)).apply (env.replay l0) op = .ok (s'.search.replay rest, r) := by
    intro hq h
    simp only [Outcome.bind_eq_ok, Outcome.ok.injEq, Prod.mk.injEq] at h
    obtain ⟨⟨c, r'⟩, h1, rfl, rfl⟩ := h
    refine ⟨ha, [], fun l0 rest => ?_⟩
    have f := apply_recast (env := env) (k := none) (l := rest) (g := replayRng l0)
      (g' := replayRng l0) (fuel := env.resampleFuel + 2) hq s.search
    rw [h1, Outcome.ok_bind] at f
    exact f
  cases op with
  | next kind =>
    obtain ⟨a1, zs, _, _, _, h2, _⟩ := next_replay ha h
    exact ⟨a1, _, h2⟩
  | run kind =>
    simp only [SearchM.apply, SearchM.run, Outcome.bind_eq_ok, Outcome.ok.injEq,
      Prod.mk.injEq] at h
    obtain ⟨_, ⟨⟨s1, d⟩, h1, rfl⟩, rfl, rfl⟩ := h
    obtain ⟨a1, l, h2⟩ := runLoop_replay _ ha h1
    refine ⟨a1, l, fun l0 rest => ?_⟩
    simp only [CMAES.apply, CMAES.run]
    have e : (env.replay l0).runFuel = env.runFuel := rfl
    rw [e, h2]
    simp only [Outcome.ok_bind, runInternal_replay]
  | addPlotPoint => exact quiet trivial h
  | clearPlot => exact quiet trivial h
  | printInitialInfo => exact quiet trivial h
  | printInfo => exact quiet trivial h
  | printFinalInfo _ => exact quiet trivial h
  | printRunInfo _ => exact quiet trivial h

theorem applyAllM_replay {ops : List Op} {s s' : SearchM n F R}
    {rs : List (Option (TerminationData n F))}
    (ha : AnswersOf a.k s.asked) (h : s.applyAll env a ops = .ok (s', rs)) :
    AnswersOf a.k s'.asked ∧ ∃ l, ∀ l0 rest,
      (s.search.replay (l ++ rest)).applyAll (env.replay l0) ops =
        .ok (s'.search.replay rest, rs) := by
  induction ops generalizing s rs with
  | nil =>
    simp only [SearchM.applyAll, Outcome.ok.injEq, Prod.mk.injEq] at h
    obtain ⟨rfl, rfl⟩ := h
    exact ⟨ha, [], fun _ _ => rfl⟩
  | cons op ops ih =>
    simp only [SearchM.applyAll, Outcome.bind_eq_ok, Outcome.ok.injEq, Prod.mk.injEq] at h
    obtain ⟨⟨s1, r⟩, h1, ⟨s2, rs'⟩, h2, rfl, rfl⟩ := h
    obtain ⟨a1, l1, h3⟩ := applyM_replay ha h1
    obtain ⟨a2, l2, h4⟩ := ih a1 h2
    refine ⟨a2, l1 ++ l2, fun l0 rest => ?_⟩
    rw [List.append_assoc]
    simp only [CMAES.applyAll, h3, Outcome.ok_bind, h4]

variable [FltLaws F] {w : World n F} {obj : Obj n F} {o : Options n F} {s0 : SearchM n F R}

theorem newM_replay (l : List F) (h : SearchM.new env w obj o = .ok s0) :
    s0.asked = [] ∧ CMAES.new (env.replay l) w obj { o with constraints := none } =
      .ok (s0.search.replay l) := by
  unfold SearchM.new at h
  cases hc : CMAES.new env w obj { o with constraints := none } with
  | error e => rw [hc] at h; simp at h
  | ok c =>
    rw [hc] at h
    simp only [Except.ok.injEq] at h
    subst h
    refine ⟨rfl, ?_⟩
    obtain ⟨hv, rfl⟩ := new_eq_ok hc
    unfold CMAES.new at hc ⊢
    rw [hv]
    dsimp only
    congr 1
    unfold CMAES.create
    dsimp only
    by_cases hg : o.printGapEvals.isSome
    · have h1 : ∀ (S : Type) (c : CMAES n F S), c.printGapEvals = o.printGapEvals →
          (if c.addPlotPoint.printGapEvals.isSome then c.addPlotPoint.printInitialInfo
            else c.addPlotPoint) = c.addPlotPoint.printInitialInfo := by
        intro S c hc
        rw [if_pos]
        show c.printGapEvals.isSome
        rw [hc]; exact hg
      rw [h1 R _ rfl, h1 (List F) _ rfl]
      rfl
    · have h1 : ∀ (S : Type) (c : CMAES n F S), c.printGapEvals = o.printGapEvals →
          (if c.addPlotPoint.printGapEvals.isSome then c.addPlotPoint.printInitialInfo
            else c.addPlotPoint) = c.addPlotPoint := by
        intro S c hc
        rw [if_neg]
        show ¬ c.printGapEvals.isSome
        rw [hc]; exact hg
      rw [h1 R _ rfl, h1 (List F) _ rfl]
      rfl

theorem answersOf_nil (k : MemConstraint n F) : AnswersOf k [] := by
  intro i hi; simp at hi

/-- **C101, a constraint only chooses among the candidates.** Whatever a constraint with memory
answers and in whatever order it is asked, the calls of the API do what they do for a search without
constraint whose random numbers are those of the chosen candidates: the same data is returned and
the search state, history, plot, output and objective calls are the same. All properties
of searches with arbitrary random numbers hold therefore with constraints that have memory. -/
theorem c101_choice {ops : List Op} {s : SearchM n F R} {rs : List (Option (TerminationData n F))}
    (h0 : SearchM.new env w obj o = .ok s0) (h : s0.applyAll env a ops = .ok (s, rs)) :
    ∃ (l : List F) (c0 : CMAES n F (List F)) (t : List (NextCall n F)),
      CMAES.new (env.replay l) w obj { o with constraints := none } = .ok c0 ∧
      c0.applyAll (env.replay l) ops = .ok (s.search.replay [], rs) ∧
      History.Of (env.replay l) obj { o with constraints := none } t (s.search.replay []) := by
  have ha : AnswersOf a.k s0.asked := by
    rw [(newM_replay [] h0).1]; exact answersOf_nil _
  obtain ⟨_, l, hl⟩ := applyAllM_replay ha h
  have h1 := hl l []
  rw [List.append_nil] at h1
  have h2 := (newM_replay l h0).2
  obtain ⟨t, ht, _⟩ := applyAll_exec h1
  exact ⟨l, _, t, h2, h1, w, _, h2, ht⟩

/-- **C101, the answers.** The questions are asked one after the other: every answer is the one that
the constraint gives after exactly the questions before it. -/
theorem c101_answers {ops : List Op} {s : SearchM n F R}
    {rs : List (Option (TerminationData n F))} (h0 : SearchM.new env w obj o = .ok s0)
    (h : s0.applyAll env a ops = .ok (s, rs)) : AnswersOf a.k s.asked := by
  have ha : AnswersOf a.k s0.asked := by
    rw [(newM_replay [] h0).1]; exact answersOf_nil _
  exact (applyAllM_replay ha h).1

/-- **C101, the points of a generation.** The objective is called only on points that the constraint
accepted when it was asked about them in this generation, each used once, and on points `extra` drawn
without asking, which exist only if `max_resamples` is set; together they are `population_size`
points. All of them are used unless the generation is cut short by a NaN. If the candidates are
examined one after the other (without `parallel_update`) then the points of a sequential generation
come in the order of the questions. With `max_resamples = Some(m)` at most `m * population_size`
questions are asked. -/
theorem c101_points {ops : List Op} {kind : EvalKind} {s s' : SearchM n F R}
    {rs : List (Option (TerminationData n F))} {r : Option (TerminationData n F)}
    {calls : List (Vec n F × F)} (h0 : SearchM.new env w obj o = .ok s0)
    (h : s0.applyAll env a ops = .ok (s, rs)) (hn : s.next env a kind = .ok (s', r))
    (hl : s'.search.sampler.obj.log = s.search.sampler.obj.log ++ calls) :
    ∃ (qs : List (Vec n F × Bool)) (extra : List (Vec n F)), s'.asked = s.asked ++ qs ∧
      (acceptedPoints qs).length + extra.length = o.populationSize ∧
      (calls.map Prod.fst).Subperm (acceptedPoints qs ++ extra) ∧
      ((∀ d, r = some d → .invalidFunctionValue ∉ d.reasons) →
        (calls.map Prod.fst).Perm (acceptedPoints qs ++ extra)) ∧
      (kind = .seq → (∀ s i m, a.order s i m = List.range m) →
        calls.map Prod.fst <+: acceptedPoints qs ++ extra) ∧
      (o.maxResamples = none → extra = []) ∧
      (∀ m, o.maxResamples = some m → qs.length ≤ m * o.populationSize) := by
  have ha := c101_answers h0 h
  obtain ⟨l, c0, t, -, -, hh⟩ := c101_choice h0 h
  obtain ⟨-, zs, qs, extra, b1, b2, b3, b4, b5, b6, b7⟩ := next_replay ha hn
  obtain ⟨gs, i, _⟩ := fresh_inv hh
  have hp : s.search.sampler.populationSize = o.populationSize := i.populationSize
  have hm : s.search.sampler.maxResamples = o.maxResamples := i.maxResamples
  have hnext := b2 l []
  rw [List.append_nil] at hnext
  obtain ⟨ys, hd, hsub, hpre⟩ := next_points (calls := calls) hnext hl
  have e := resample_replay l s.search.state.cov.transform s.search.state.mean
    s.search.state.sigma s.search.sampler.maxResamples env.resampleFuel zs []
  rw [b1, List.append_nil] at e
  have e' : drawnSteps (env.replay l) (s.search.replay (zs.flatMap List.ofFn)) =
    .ok (zs.map s.search.state.cov.transform.mulVec, []) := e
  rw [e'] at hd
  simp only [Outcome.ok.injEq, Prod.mk.injEq] at hd
  obtain ⟨rfl, -⟩ := hd
  refine ⟨qs, extra, b3, ?_, ?_, ?_, ?_, ?_, ?_⟩
  · have := b4.length_eq
    simp only [List.length_map, List.length_append] at this
    rw [← this, b1, hp]
  · exact hsub.trans b4.subperm
  · intro hr
    obtain ⟨calls', _, hl', _, _, _, hcase⟩ := next_cases hnext
    have ec : calls' = calls := List.append_cancel_left (hl'.symm.trans hl)
    subst ec
    rcases hcase with hfail | ⟨ps, inds, hcomp, _⟩
    · exact absurd (by simp [CMAES.terminationData]) (hr _ hfail.result)
    · refine List.Subperm.perm_of_length_le (hsub.trans b4.subperm) ?_
      have h1 := b4.length_eq
      have h2 := hcomp.sampled.callsLength
      simp only [List.length_map, List.length_append] at h1 ⊢
      have h3 : (s.search.replay (zs.flatMap List.ofFn)).sampler.populationSize =
        s.search.sampler.populationSize := rfl
      rw [h3] at h2
      omega
  · intro hk hs
    have := hpre hk
    rw [← b5 (hs _)]
    exact this
  · intro hmx
    by_contra hne
    obtain ⟨m, hm'⟩ := b6 hne
    rw [hm, hmx] at hm'
    simp at hm'
  · intro m hmx
    rw [← hp]
    exact b7 m (by rw [hm, hmx])

/-! ### Limited resampling -/

omit [FltLaws F] in
theorem askAll_total {k : MemConstraint n F} (hk : ∀ log x, ∃ b, k log x = .ok b)
    (xs : List (Vec n F)) (order : List Nat) (asked : List (Vec n F × Bool)) :
    ∃ q, askAll k xs order asked = .ok q := by
  induction order generalizing asked with
  | nil => exact ⟨_, rfl⟩
  | cons i is ih =>
    unfold askAll
    cases xs[i]? with
    | none => exact ih asked
    | some x =>
      obtain ⟨b, hb⟩ := hk asked x
      obtain ⟨q, hq⟩ := ih (asked ++ [(x, b)])
      simp only [hb, Outcome.ok_bind, hq]
      exact ⟨_, rfl⟩

omit [FltLaws F] in
theorem keepAccepted_le (ys : List (Vec n F)) (bs : List (Nat × Bool)) :
    (keepAccepted ys bs).length ≤ ys.length :=
  (List.length_filterMap_le _ _).trans (by simp)

omit [FltLaws F] in
theorem resampleM_limited {rng : RngOps R F} {T : Mat n F} {mean : Vec n F} {sigma : F}
    {k : MemConstraint n F} {order : Nat → Nat → List Nat} {m pop : Nat}
    (hk : ∀ log x, ∃ b, k log x = .ok b) (fuel i : Nat) (y : List (Vec n F)) (r : R)
    (asked : List (Vec n F × Bool)) (hy : y.length ≤ pop)
    (hf : m + 2 ≤ i + fuel ∧ 2 ≤ fuel ∨ y.length = pop ∧ 1 ≤ fuel) :
    ∃ q, resampleM rng T mean sigma k order (some m) pop fuel i y r asked = .ok q := by
  induction fuel generalizing i y r asked with
  | zero => omega
  | succ fuel ih =>
    unfold resampleM
    rw [if_neg (by omega)]
    dsimp only
    by_cases hr : pop - y.length = 0
    · rw [if_pos hr]; exact ⟨_, rfl⟩
    rw [if_neg hr]
    have hlen := drawVecs_length (n := n) rng (pop - y.length) r
    by_cases hm : m ≤ i
    · simp only [hm, if_true, sampleRoundM, Outcome.ok_bind]
      refine ih _ _ _ _ ?_ (.inr ⟨?_, by omega⟩) <;>
      · simp only [List.length_append, List.length_map, hlen]
        omega
    · simp only [hm, if_false, sampleRoundM]
      obtain ⟨⟨bs, asked'⟩, hq⟩ := askAll_total hk (((drawVecs rng (pop - y.length) r).1.map
        T.mulVec).map (toPoint · mean sigma)) (order i (pop - y.length)) asked
      simp only [hq, Outcome.ok_bind]
      refine ih _ _ _ _ ?_ (.inl ⟨by omega, by omega⟩)
      have := keepAccepted_le ((drawVecs rng (pop - y.length) r).1.map T.mulVec) bs
      simp only [List.length_append, List.length_map, hlen] at this ⊢
      omega

/-- **C101, limited resampling.** With `max_resamples` set, `next` and `next_parallel` return whatever
the answers are and however they depend on the earlier questions: a constraint with memory cannot
keep a search from going on, as long as it does not panic itself and the other conditions of C26 for
searches without constraints hold. -/
theorem c101_returns {ops : List Op} {s : SearchM n F R} {rs : List (Option (TerminationData n F))}
    {m : Nat} (h0 : SearchM.new env w obj o = .ok s0) (h : s0.applyAll env a ops = .ok (s, rs))
    (hm : o.maxResamples = some m) (hf : m + 2 ≤ env.resampleFuel)
    (hk : ∀ log x, ∃ b, a.k log x = .ok b)
    (hs : CanStep env obj { o with constraints := none } s.search) (kind : EvalKind) :
    ∃ s' r, s.next env a kind = .ok (s', r) := by
  have ha0 : AnswersOf a.k s0.asked := by
    rw [(newM_replay [] h0).1]; exact answersOf_nil _
  obtain ⟨ha, l, hl⟩ := applyAllM_replay ha0 h
  have hist : ∀ l', ∃ t, History.Of (env.replay (l ++ l')) obj { o with constraints := none } t
      (s.search.replay l') := by
    intro l'
    obtain ⟨t, ht, _⟩ := applyAll_exec (hl (l ++ l') l')
    exact ⟨t, w, _, (newM_replay (l ++ l') h0).2, ht⟩
  obtain ⟨t0, hh⟩ := hist []
  obtain ⟨gs, i, _⟩ := fresh_inv hh
  have hmx : s.search.sampler.maxResamples = some m := by
    rw [← hm]; exact i.maxResamples
  obtain ⟨⟨ys, r, asked⟩, h1⟩ := resampleM_limited (rng := env.rng)
    (T := s.search.state.cov.transform) (mean := s.search.state.mean)
    (sigma := s.search.state.sigma) (order := a.order s.search.world.steps)
    (pop := s.search.sampler.populationSize) (m := m) hk env.resampleFuel 0 [] s.search.sampler.rng s.asked
    (by simp) (.inl ⟨by omega, by omega⟩)
  rw [← hmx] at h1
  obtain ⟨-, zs, qs, extra, b2, b3, -⟩ := resampleM_spec ha (a.perm s.search.world.steps) h1
  rw [List.nil_append] at b2
  subst b2
  rw [List.length_map] at b3
  obtain ⟨t1, hh1⟩ := hist (zs.flatMap List.ofFn)
  obtain ⟨c', d, h2⟩ := c26_returns hh1 ⟨by simp, hs.generation, hs.plotGap, hs.printGap,
    hs.median⟩ (.inl ⟨rfl, Nat.le_add_left _ _⟩) kind
  rw [next_eq_nextWith] at h2
  have e := resample_replay (l ++ zs.flatMap List.ofFn) s.search.state.cov.transform
    s.search.state.mean s.search.state.sigma s.search.sampler.maxResamples env.resampleFuel zs []
  rw [b3, List.append_nil] at e
  have f := nextWith_recast (env := env) (k := none) (l := ([] : List F))
    (g := replayRng (l ++ zs.flatMap List.ofFn)) (g' := replayRng (l ++ zs.flatMap List.ofFn))
    (fuel := env.resampleFuel + 2) kind
    (zs.map s.search.state.cov.transform.mulVec) r s.search (zs.flatMap List.ofFn)
  have h3 : (s.search.replay (zs.flatMap List.ofFn)).nextWith
      (env.replay (l ++ zs.flatMap List.ofFn)) kind
      (zs.map s.search.state.cov.transform.mulVec) [] = .ok (c', d) := by
    have e' : resample (env.replay (l ++ zs.flatMap List.ofFn)).rng
      (s.search.replay (zs.flatMap List.ofFn)).state.cov.transform
      (s.search.replay (zs.flatMap List.ofFn)).state.mean
      (s.search.replay (zs.flatMap List.ofFn)).state.sigma
      (s.search.replay (zs.flatMap List.ofFn)).sampler.constraints
      (s.search.replay (zs.flatMap List.ofFn)).sampler.maxResamples
      (s.search.replay (zs.flatMap List.ofFn)).sampler.populationSize
      (env.replay (l ++ zs.flatMap List.ofFn)).resampleFuel 0 []
      (s.search.replay (zs.flatMap List.ofFn)).sampler.rng =
      .ok (zs.map s.search.state.cov.transform.mulVec, []) := e
    rw [e', Outcome.ok_bind] at h2
    exact h2
  have f' := f.symm.trans h3
  rw [Outcome.bind_eq_ok] at f'
  obtain ⟨⟨c1, d1⟩, h4, -⟩ := f'
  unfold SearchM.next
  simp only [h1, Outcome.ok_bind, h4]
  exact ⟨_, _, rfl⟩

/-! ### Constraints without memory -/

omit [FltLaws F] in
theorem filterMap_range (ys : List (Vec n F)) (g : Vec n F → Option (Vec n F)) :
    (List.range ys.length).filterMap (fun i => ys[i]?.bind g) = ys.filterMap g := by
  induction ys with
  | nil => rfl
  | cons y ys ih =>
    rw [List.length_cons, List.range_succ_eq_map, List.filterMap_cons, List.filterMap_map]
    have e : ((fun i => (y :: ys)[i]?.bind g) ∘ Nat.succ) = fun i => ys[i]?.bind g := by
      funext i; simp
    rw [e, ih, List.filterMap_cons]
    simp

omit [FltLaws F] in
theorem askAll_memoryless {k : MemConstraint n F} {p : Vec n F → Bool}
    (hk : ∀ log x, k log x = .ok (p x)) (xs : List (Vec n F)) (order : List Nat)
    (asked : List (Vec n F × Bool)) : ∃ asked', askAll k xs order asked =
      .ok (order.filterMap fun i => xs[i]?.map fun x => (i, p x), asked') := by
  induction order generalizing asked with
  | nil => exact ⟨asked, rfl⟩
  | cons i is ih =>
    cases hx : xs[i]? with
    | none =>
      obtain ⟨asked', h⟩ := ih asked
      exact ⟨asked', by simp [askAll, hx, h]⟩
    | some x =>
      obtain ⟨asked', h⟩ := ih (asked ++ [(x, p x)])
      exact ⟨asked', by simp [askAll, hx, hk, h]⟩

omit [FltLaws F] in
theorem keepAccepted_memoryless {p : Vec n F → Bool} {ys : List (Vec n F)} {order : List Nat}
    (P : Vec n F → Vec n F) (ho : order.Perm (List.range ys.length)) :
    keepAccepted ys (order.filterMap fun i => (ys.map P)[i]?.map fun x => (i, p x)) =
      ys.filter fun y => p (P y) := by
  have hn : order.Nodup := ho.nodup_iff.mpr List.nodup_range
  have hb : (order.filterMap fun i => (ys.map P)[i]?.map fun x => (i, p x)).map Prod.fst =
      order := by
    have : ∀ l : List Nat, (∀ i ∈ l, i < ys.length) →
        (l.filterMap fun i => (ys.map P)[i]?.map fun x => (i, p x)).map Prod.fst = l := by
      intro l hl
      induction l with
      | nil => rfl
      | cons i l ih =>
        have hi : i < (ys.map P).length := by simpa using hl i (by simp)
        rw [List.filterMap_cons, List.getElem?_eq_getElem hi]
        simp only [Option.map_some, List.map_cons]
        rw [ih fun j hj => hl j (by simp [hj])]
    exact this order fun i hi => by simpa using ho.subset hi
  unfold keepAccepted
  rw [← List.filterMap_eq_filter, ← filterMap_range ys]
  refine List.filterMap_congr fun i hi => ?_
  rw [List.mem_range] at hi
  have hmem : (i, p (P ys[i])) ∈ order.filterMap fun i => (ys.map P)[i]?.map fun x => (i, p x) := by
    rw [List.mem_filterMap]
    refine ⟨i, ho.symm.subset (List.mem_range.mpr hi), ?_⟩
    simp [hi]
  rw [lookup_of_nodup (by rw [hb]; exact hn) hmem, List.getElem?_eq_getElem hi]
  simp only [Option.some.injEq, Option.bind_some, Option.guard]

omit [FltLaws F] in
theorem filterOk_filter (p : Vec n F → Bool) (ys : List (Vec n F)) :
    filterOk (fun y => .ok (p y)) ys = .ok (ys.filter p) := by
  induction ys with
  | nil => rfl
  | cons y ys ih =>
    simp only [filterOk, ih, Outcome.ok_bind, List.filter_cons]

omit [FltLaws F] in
theorem resampleM_memoryless {rng : RngOps R F} {T : Mat n F} {mean : Vec n F} {sigma : F}
    {k : MemConstraint n F} {p : List F → Bool} (hk : ∀ log x, k log x = .ok (p (List.ofFn x)))
    {order : Nat → Nat → List Nat} (ho : ∀ i m, (order i m).Perm (List.range m))
    (mx : Option Nat) (pop fuel i : Nat) (y : List (Vec n F)) (r : R)
    (asked : List (Vec n F × Bool)) :
    Outcome.Rel (fun a b => b.1 = a.1 ∧ b.2 = a.2.1)
      (resampleM rng T mean sigma k order mx pop fuel i y r asked)
      (resample rng T mean sigma (some fun x => .ok (p x)) mx pop fuel i y r) := by
  induction fuel generalizing i y r asked with
  | zero => exact .diverge
  | succ fuel ih =>
    unfold resampleM resample
    by_cases h0 : pop < y.length
    · simp only [if_pos h0]; exact .panic _
    by_cases h1 : pop - y.length = 0
    · simp only [if_neg h0, if_pos h1]
      exact .ok ⟨rfl, rfl⟩
    simp only [if_neg h0, if_neg h1]
    refine Outcome.Rel.bind (P := fun a b => b.1 = a.1 ∧ b.2 = a.2.1) ?_ ?_
    · have none_case : Outcome.Rel (fun a b => b.1 = a.1 ∧ b.2 = a.2.1)
          (sampleRoundM rng T mean sigma none (order i (pop - y.length)) (pop - y.length) r asked)
          (sampleRound rng T mean sigma none (pop - y.length) r) := by
        unfold sampleRoundM sampleRound
        simp only [filterOk_true, Outcome.ok_bind]
        exact .ok ⟨rfl, rfl⟩
      have some_case : Outcome.Rel (fun a b => b.1 = a.1 ∧ b.2 = a.2.1)
          (sampleRoundM rng T mean sigma (some k) (order i (pop - y.length)) (pop - y.length) r
            asked)
          (sampleRound rng T mean sigma (some fun x => .ok (p x)) (pop - y.length) r) := by
        have hlen := drawVecs_length (n := n) rng (pop - y.length) r
        unfold sampleRoundM sampleRound
        generalize drawVecs (n := n) rng (pop - y.length) r = q at hlen
        obtain ⟨zs, r1⟩ := q
        simp only at hlen ⊢
        obtain ⟨asked', h2⟩ := askAll_memoryless (p := fun x => p (List.ofFn x)) hk
          (List.map (toPoint · mean sigma) (List.map T.mulVec zs)) (order i (pop - y.length)) asked
        rw [h2, filterOk_filter (fun y => p (List.ofFn (toPoint y mean sigma)))]
        simp only [Outcome.ok_bind]
        rw [keepAccepted_memoryless (p := fun x => p (List.ofFn x)) (toPoint · mean sigma)
          (by rw [List.length_map, hlen]; exact ho _ _)]
        exact .ok ⟨rfl, rfl⟩
      cases mx with
      | none => exact some_case
      | some m =>
        by_cases hm : m ≤ i
        · simp only [if_pos hm]; exact none_case
        · simp only [if_neg hm]; exact some_case
    · rintro ⟨new, r1, asked1⟩ ⟨_, _⟩ ⟨rfl, rfl⟩
      exact ih _ _ _ _

/-- The `CMAES` of a search whose constraint always gives the same answers. -/
def SearchM.withConstraint (s : SearchM n F R) (k : Constraint F) : CMAES n F R :=
  s.search.recast (some k) s.search.sampler.rng

section
variable {p : List F → Bool}

omit [FltLaws F] in
theorem bind_rel {α β γ : Type} {P : β → γ → Prop} (x : Outcome α) (f : α → Outcome β)
    (g : α → γ) (h : ∀ y, x = .ok y → ∃ b, f y = .ok b ∧ P b (g y)) :
    Outcome.Rel P (x >>= f) (x >>= fun y => .ok (g y)) := by
  cases x with
  | panic q => exact .panic q
  | diverge => exact .diverge
  | ok y =>
    obtain ⟨b, h1, h2⟩ := h y rfl
    simp only [Outcome.ok_bind, h1]
    exact .ok h2

omit [FltLaws F] in
theorem nextWith_rng {kind : EvalKind} {ys : List (Vec n F)} {r : R} {c d : CMAES n F R}
    {x : Option (TerminationData n F)} (h : c.nextWith env kind ys r = .ok (d, x)) :
    d.sampler.rng = r := by
  have f := nextWith_recast (env := env) (k := c.sampler.constraints) (l := r) (g := env.rng)
    (g' := env.restartRng) (fuel := env.resampleFuel) kind ys r c c.sampler.rng
  have e1 : env.recast env.rng env.restartRng env.resampleFuel = env := rfl
  have e2 : c.recast c.sampler.constraints c.sampler.rng = c := rfl
  rw [e1, e2, h] at f
  simp only [Outcome.ok_bind, Outcome.ok.injEq, Prod.mk.injEq, and_true] at f
  rw [f]
  rfl

omit [FltLaws F] in
theorem nextM_memoryless (hk : ∀ log x, a.k log x = .ok (p (List.ofFn x))) (kind : EvalKind)
    (s : SearchM n F R) :
    Outcome.Rel (fun x y => y = (x.1.withConstraint (fun l => .ok (p l)), x.2))
      (s.next env a kind) ((s.withConstraint fun l => .ok (p l)).next env kind) := by
  rw [next_eq_nextWith]
  unfold SearchM.next
  refine Outcome.Rel.bind (resampleM_memoryless hk (a.perm _) _ _ _ _ _ _ _) ?_
  rintro ⟨ys, r, asked⟩ ⟨ys', r'⟩ ⟨h1, h2⟩
  simp only at h1 h2
  subst h1 h2
  have f := nextWith_recast (env := env) (k := some fun l => .ok (p l)) (l := r') (g := env.rng)
    (g' := env.restartRng) (fuel := env.resampleFuel) kind ys' r' s.search s.search.sampler.rng
  have e : env.recast env.rng env.restartRng env.resampleFuel = env := rfl
  rw [e] at f
  show Outcome.Rel _ _ ((s.search.recast (some fun l => .ok (p l)) s.search.sampler.rng).nextWith
    env kind ys' r')
  rw [f]
  refine bind_rel _ _ _ ?_
  rintro ⟨c, d⟩ hc
  refine ⟨_, rfl, ?_⟩
  have hr : c.sampler.rng = r' := nextWith_rng hc
  rw [← hr]
  rfl

omit [FltLaws F] in
theorem runLoopM_memoryless (hk : ∀ log x, a.k log x = .ok (p (List.ofFn x))) (kind : EvalKind)
    (fuel : Nat) (s : SearchM n F R) :
    Outcome.Rel (fun x y => y = (x.1.withConstraint (fun l => .ok (p l)), x.2))
      (s.runLoop env a kind fuel) ((s.withConstraint fun l => .ok (p l)).runLoop env kind fuel) := by
  induction fuel generalizing s with
  | zero => exact .diverge
  | succ fuel ih =>
    simp only [SearchM.runLoop, CMAES.runLoop]
    refine Outcome.Rel.bind (nextM_memoryless hk kind s) ?_
    rintro ⟨s1, r⟩ _ rfl
    cases r with
    | none => exact ih s1
    | some d => exact .ok rfl

theorem applyM_memoryless (hk : ∀ log x, a.k log x = .ok (p (List.ofFn x))) (op : Op)
    (s : SearchM n F R) :
    Outcome.Rel (fun x y => y = (x.1.withConstraint (fun l => .ok (p l)), x.2))
      (s.apply env a op) ((s.withConstraint fun l => .ok (p l)).apply env op) := by
  have quiet : op.Quiet → Outcome.Rel
      (fun (x : SearchM n F R × Option (TerminationData n F)) y =>
        y = (x.1.withConstraint (fun l => .ok (p l)), x.2))
      (s.search.apply env op >>= fun q => .ok (({ s with search := q.1 } : SearchM n F R), q.2))
      ((s.withConstraint fun l => .ok (p l)).apply env op) := by
    intro hq
    have f := apply_recast (env := env) (k := some fun l => .ok (p l)) (l := s.search.sampler.rng)
      (g := env.rng) (g' := env.restartRng) (fuel := env.resampleFuel) hq s.search
    have e : env.recast env.rng env.restartRng env.resampleFuel = env := rfl
    rw [e] at f
    unfold SearchM.withConstraint
    rw [f]
    refine bind_rel _ _ _ ?_
    rintro ⟨c, d⟩ hc
    refine ⟨_, rfl, ?_⟩
    have hr : c.sampler = s.search.sampler := (quiet_sameSearch hq hc).1.sampler
    simp only [hr]
  cases op with
  | next kind => exact nextM_memoryless hk kind s
  | run kind =>
    simp only [SearchM.apply, SearchM.run, CMAES.apply, CMAES.run]
    refine Outcome.Rel.bind (P := fun (x : SearchM n F R × TerminationData n F) y =>
      y = (x.1.withConstraint (fun l => .ok (p l)), x.2))
      (Outcome.Rel.bind (runLoopM_memoryless hk kind _ s) ?_) ?_
    · rintro ⟨s1, d⟩ _ rfl
      refine .ok ?_
      have hr : (s1.search.runInternal d).sampler = s1.search.sampler := by
        unfold CMAES.runInternal
        dsimp only
        split
        · exact ((sameSearch_addPlotPoint _).trans (sameSearch_printFinalInfo _ _)).sampler
        · exact (sameSearch_addPlotPoint _).sampler
      simp only [SearchM.withConstraint, runInternal_recast, hr]
    · rintro ⟨s1, d⟩ _ rfl
      exact .ok rfl
  | addPlotPoint => exact quiet trivial
  | clearPlot => exact quiet trivial
  | printInitialInfo => exact quiet trivial
  | printInfo => exact quiet trivial
  | printFinalInfo _ => exact quiet trivial
  | printRunInfo _ => exact quiet trivial

/-- **C101, constraints without memory.** For a constraint that always gives the same answers
(`Verif.Model.Sampling`), the order in which it is asked makes no difference: every sequence of calls
has the outcome (result, panic or no end) that it has in the model for such constraints, with the
same data returned and the same `CMAES` left. -/
theorem c101_memoryless {w : World n F} {o : Options n F} {s0 : SearchM n F R} {c0 : CMAES n F R}
    (hk : ∀ log x, a.k log x = .ok (p (List.ofFn x))) (h0 : SearchM.new env w obj o = .ok s0)
    (h0' : CMAES.new env w obj { o with constraints := some fun l => .ok (p l) } = .ok c0)
    (ops : List Op) :
    Outcome.Rel (fun x y => y = (x.1.withConstraint (fun l => .ok (p l)), x.2))
      (s0.applyAll env a ops) (c0.applyAll env ops) := by
  have key : ∀ s : SearchM n F R,
      Outcome.Rel (fun x y => y = (x.1.withConstraint (fun l => .ok (p l)), x.2))
      (s.applyAll env a ops) ((s.withConstraint fun l => .ok (p l)).applyAll env ops) := by
    induction ops with
    | nil => exact fun s => .ok rfl
    | cons op ops ih =>
      intro s
      simp only [SearchM.applyAll, CMAES.applyAll]
      refine Outcome.Rel.bind (applyM_memoryless hk op s) ?_
      rintro ⟨s1, r⟩ _ rfl
      refine Outcome.Rel.bind (ih s1) ?_
      rintro ⟨s2, rs⟩ _ rfl
      exact .ok rfl
  have e : c0 = s0.withConstraint fun l => .ok (p l) := by
    unfold SearchM.new at h0
    cases hc : CMAES.new env w obj { o with constraints := none } with
    | error e => rw [hc] at h0; simp at h0
    | ok c =>
      rw [hc] at h0
      simp only [Except.ok.injEq] at h0
      subst h0
      rw [(new_eq_ok h0').2, (new_eq_ok hc).2]
      unfold SearchM.withConstraint CMAES.create
      dsimp only
      by_cases hg : o.printGapEvals.isSome
      · have h1 : ∀ c : CMAES n F R, c.printGapEvals = o.printGapEvals →
            (if c.addPlotPoint.printGapEvals.isSome then c.addPlotPoint.printInitialInfo
              else c.addPlotPoint) = c.addPlotPoint.printInitialInfo := by
          intro c hc
          rw [if_pos]
          show c.printGapEvals.isSome
          rw [hc]; exact hg
        rw [h1 _ rfl, h1 _ rfl]
        rfl
      · have h1 : ∀ c : CMAES n F R, c.printGapEvals = o.printGapEvals →
            (if c.addPlotPoint.printGapEvals.isSome then c.addPlotPoint.printInitialInfo
              else c.addPlotPoint) = c.addPlotPoint := by
          intro c hc
          rw [if_neg]
          show ¬ c.printGapEvals.isSome
          rw [hc]; exact hg
        rw [h1 _ rfl, h1 _ rfl]
        rfl
  rw [e]
  exact key s0

end

/-! ### Concrete cases -/

namespace Witness

/-- A constraint that accepts every second point it is asked about, whatever the point is. -/
def everySecond : MemConstraint 2 F64 := fun log _ => .ok (log.length % 2 == 0)

/-- It is asked about the candidates from the last to the first. -/
def askedBackwards : Asking 2 F64 where
  k := everySecond
  order _ _ m := (List.range m).reverse
  perm _ _ _ := List.reverse_perm _

/-- It is asked about one candidate after the other. -/
def askedInOrder : Asking 2 F64 where
  k := everySecond
  order _ _ m := List.range m
  perm _ _ _ := .refl _

end Witness

open Witness in
/-- The hypotheses of `c101_choice`, `c101_answers` and `c101_points` are met: the four points of
the two generations need seven and eight questions, and the points that are used depend on the order of the
questions. -/
example : ∃ s0 s s', SearchM.new (wenv 2) World.init sphere opts = .ok s0 ∧
    s0.applyAll (wenv 2) askedBackwards [.next .par, .printInfo] = .ok (s, [none, none]) ∧
    s.next (wenv 2) askedBackwards .seq = .ok (s', none) ∧
    s.asked.length = 7 ∧ s'.asked.length = 15 ∧ s'.search.sampler.obj.log.length = 8 ∧
    ((acceptedPoints (s'.asked.drop 7)).zip (s'.search.sampler.obj.log.drop 4)).any
      (fun q => Flt.lt (q.1 0) (q.2.1 0)) = true := by
  have hb : (Outcome.check ((SearchM.mk (CMAES.create (wenv 2) World.init sphere opts) []).applyAll
      (wenv 2) askedBackwards [.next .par, .printInfo]) fun x =>
        x.2.all Option.isNone && x.2.length == 2 && x.1.asked.length == 7 &&
        (x.1.next (wenv 2) askedBackwards .seq).check fun y =>
          y.2.isNone && y.1.asked.length == 15 && y.1.search.sampler.obj.log.length == 8 &&
          ((acceptedPoints (y.1.asked.drop 7)).zip (y.1.search.sampler.obj.log.drop 4)).any
            fun q => Flt.lt (q.1 0) (q.2.1 0)) = true := by
    decide +kernel
  obtain ⟨⟨s, rs⟩, h1, h2⟩ := Outcome.of_check hb
  simp only [Bool.and_eq_true, beq_iff_eq] at h2
  obtain ⟨⟨⟨h3, h4⟩, h5⟩, h6⟩ := h2
  obtain ⟨⟨s', r⟩, h7, h8⟩ := Outcome.of_check h6
  simp only [Bool.and_eq_true, beq_iff_eq, decide_eq_true_eq, Option.isNone_iff_eq_none] at h8
  obtain ⟨⟨⟨rfl, h9⟩, h10⟩, h11⟩ := h8
  have hrs : rs = [none, none] := by
    match rs, h3, h4 with
    | [none, none], _, _ => rfl
  subst hrs
  refine ⟨_, s, s', ?_, h1, h7, h5, h9, h10, h11⟩
  unfold SearchM.new
  have : CMAES.validate { opts with constraints := none } = none := by decide +kernel
  simp only [CMAES.new, this]
  rfl

open Witness in
/-- The hypotheses of `c101_returns` are met with a limit of one round of questions, after which two
points are used without asking. -/
example : ∃ s0 s, SearchM.new (wenv 2) World.init sphere { opts with maxResamples := some 1 } =
      .ok s0 ∧ s0.applyAll (wenv 2) askedInOrder [.next .seq] = .ok (s, [none]) ∧
    1 + 2 ≤ (wenv 2).resampleFuel ∧ (∀ log x, ∃ b, askedInOrder.k log x = .ok b) ∧
    CanStep (wenv 2) sphere { opts with maxResamples := some 1, constraints := none } s.search ∧
    s.asked.length = 4 ∧ (acceptedPoints s.asked).length = 2 ∧
    s.search.sampler.obj.log.length = 4 := by
  have hb : (Outcome.check ((SearchM.mk (CMAES.create (wenv 2) World.init sphere
      { opts with maxResamples := some 1, constraints := none }) []).applyAll
      (wenv 2) askedInOrder [.next .seq]) fun x =>
        x.2.all Option.isNone && x.2.length == 1 && x.1.asked.length == 4 &&
        (acceptedPoints x.1.asked).length == 2 && x.1.search.sampler.obj.log.length == 4 &&
        x.1.search.generation == 1) = true := by
    decide +kernel
  obtain ⟨⟨s, rs⟩, h1, h2⟩ := Outcome.of_check hb
  simp only [Bool.and_eq_true, beq_iff_eq] at h2
  obtain ⟨⟨⟨⟨⟨h3, h4⟩, h5⟩, h6⟩, h7⟩, h8⟩ := h2
  have hrs : rs = [none] := by
    match rs, h3, h4 with
    | [none], _, _ => rfl
  subst hrs
  refine ⟨_, s, ?_, h1, by decide, fun _ _ => ⟨_, rfl⟩, ?_, h5, h6, h7⟩
  · unfold SearchM.new
    have : CMAES.validate { opts with maxResamples := some 1, constraints := none } = none := by
      decide +kernel
    simp only [CMAES.new, this]
  · exact ⟨by simp, by rw [h8]; decide, by simp [opts, Options.new], by simp [opts, Options.new],
      .inl fun l => ⟨_, rfl⟩⟩

open Witness in
/-- The hypotheses of `c101_memoryless` are met by a constraint that accepts points on one side,
asked backwards. -/
example : ∃ (a : Asking 2 F64) (p : List F64 → Bool) (s0 : SearchM 2 F64 Nat) (c0 : CMAES 2 F64 Nat),
    (∀ log x, a.k log x = .ok (p (List.ofFn x))) ∧
    SearchM.new (wenv 2) World.init sphere opts = .ok s0 ∧
    CMAES.new (wenv 2) World.init sphere { opts with constraints := some fun l => .ok (p l) } =
      .ok c0 := by
  have h1 : CMAES.validate { opts with constraints := none } = none := by decide +kernel
  have h2 : CMAES.validate { opts with
      constraints := some fun l => .ok (Flt.le (l.getD 0 (0 : F64)) 2) } = none := by
    decide +kernel
  refine ⟨{ askedBackwards with k := fun _ x => .ok (Flt.le (x 0) 2) },
    fun l => Flt.le (l.getD 0 0) 2,
    ⟨CMAES.create (wenv 2) World.init sphere { opts with constraints := none }, []⟩,
    CMAES.create (wenv 2) World.init sphere { opts with
      constraints := some fun l => .ok (Flt.le (l.getD 0 (0 : F64)) 2) },
    fun _ x => by simp [List.ofFn_succ], ?_, ?_⟩
  · unfold SearchM.new
    simp only [CMAES.new, h1]
  · simp only [CMAES.new, h2]

end Cmaes
