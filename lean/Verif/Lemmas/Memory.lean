import Verif.Spec.Memory
import Verif.Lemmas.Next
import Verif.Lemmas.Sampling
import Mathlib.Data.List.GetD

/-!
# Lemmas about constraints with memory
-/

set_option linter.unusedSectionVars false

namespace Cmaes
variable {n : Nat} {F R : Type} [Flt F]

/-! ### Replaying random numbers -/

theorem drawNormals_replay (l : List F) (xs rest : List F) :
    drawNormals (replayRng l) xs.length (xs ++ rest) = (xs, rest) := by
  induction xs with
  | nil => rfl
  | cons x xs ih =>
    show (let (x', r) := (x, xs ++ rest); let (xs', r) := drawNormals (replayRng l) xs.length r;
      (x' :: xs', r)) = _
    simp only [ih]

theorem drawVec_replay (l : List F) (z : Vec n F) (rest : List F) :
    drawVec (n := n) (replayRng l) (List.ofFn z ++ rest) = (z, rest) := by
  have h := drawNormals_replay l (List.ofFn z) rest
  rw [List.length_ofFn] at h
  unfold drawVec
  rw [h]
  dsimp only
  congr 1
  funext i
  rw [List.getD_eq_getElem _ _ (by simp)]
  simp

theorem drawVecs_replay (l : List F) (zs : List (Vec n F)) (rest : List F) :
    drawVecs (n := n) (replayRng l) zs.length (zs.flatMap List.ofFn ++ rest) = (zs, rest) := by
  induction zs with
  | nil => rfl
  | cons z zs ih =>
    simp only [List.length_cons, List.flatMap_cons, List.append_assoc, drawVecs, drawVec_replay, ih]

theorem filterOk_true (ys : List (Vec n F)) : filterOk (fun _ => .ok true) ys = .ok ys := by
  induction ys with
  | nil => rfl
  | cons y ys ih => simp [filterOk, ih]

theorem resample_replay (l : List F) (T : Mat n F) (mean : Vec n F) (sigma : F) (mx : Option Nat)
    (fuel : Nat) (zs : List (Vec n F)) (rest : List F) :
    resample (replayRng l) T mean sigma none mx zs.length (fuel + 2) 0 []
      (zs.flatMap List.ofFn ++ rest) = .ok (zs.map T.mulVec, rest) := by
  cases zs with
  | nil => rfl
  | cons z zs =>
    have hs : sampleRound (replayRng l) T mean sigma none (z :: zs).length
        ((z :: zs).flatMap List.ofFn ++ rest) = .ok ((z :: zs).map T.mulVec, rest) := by
      unfold sampleRound
      simp only [drawVecs_replay, filterOk_true, Outcome.ok_bind]
    unfold resample
    simp only [List.length_nil, Nat.not_lt_zero, if_false, Nat.sub_zero]
    rw [if_neg (by simp)]
    have e : ∀ cs : Option (Constraint F), cs = none →
        sampleRound (replayRng l) T mean sigma cs (z :: zs).length
        ((z :: zs).flatMap List.ofFn ++ rest) = .ok ((z :: zs).map T.mulVec, rest) := by
      rintro cs rfl; exact hs
    rw [e _ (by
      cases mx with
      | none => rfl
      | some m => exact ite_self _)]
    simp only [Outcome.ok_bind]
    unfold resample
    simp

/-! ### After the steps are drawn -/

theorem next_eq_nextWith (env : Env n F R) (kind : EvalKind) (c : CMAES n F R) :
    c.next env kind = (resample env.rng c.state.cov.transform c.state.mean c.state.sigma
      c.sampler.constraints c.sampler.maxResamples c.sampler.populationSize env.resampleFuel 0 []
      c.sampler.rng >>= fun q => c.nextWith env kind q.1 q.2) := by
  unfold CMAES.next Sampler.sample CMAES.nextWith
  cases resample env.rng c.state.cov.transform c.state.mean c.state.sigma
      c.sampler.constraints c.sampler.maxResamples c.sampler.populationSize env.resampleFuel 0 []
      c.sampler.rng with
  | panic p => rfl
  | diverge => rfl
  | ok q =>
    obtain ⟨ys, r⟩ := q
    simp only [Outcome.ok_bind]
    cases kind with
    | seq =>
      simp only
      generalize evalSeq c.state.mean c.state.sigma ys c.sampler.obj = q
      obtain ⟨_ | ps, o⟩ := q <;> rfl
    | par =>
      simp only
      generalize evalPar _ c.state.mean c.state.sigma ys c.sampler.obj = q
      obtain ⟨_ | ps, o⟩ := q <;> rfl

/-- The same machine with other generators. -/
def Env.recast {R' : Type} (env : Env n F R) (rng restartRng : RngOps R' F) (resampleFuel : Nat) :
    Env n F R' where
  rng := rng
  restartRng := restartRng
  eigen := env.eigen
  clock := env.clock
  sched := env.sched
  redTree := env.redTree
  medianNaN := env.medianNaN
  randomSeed := env.randomSeed
  resampleFuel := resampleFuel
  runFuel := env.runFuel
  restartFuel := env.restartFuel

/-- The same `CMAES` with another constraint and generator. -/
def CMAES.recast {R' : Type} (c : CMAES n F R) (k : Option (Constraint F)) (r : R') :
    CMAES n F R' where
  sampler :=
    { constraints := k, maxResamples := c.sampler.maxResamples
      populationSize := c.sampler.populationSize, rng := r, obj := c.sampler.obj
      functionEvals := c.sampler.functionEvals }
  parameters := c.parameters
  state := c.state
  history := c.history
  plot := c.plot
  printGapEvals := c.printGapEvals
  lastPrintEvals := c.lastPrintEvals
  timeCreated := c.timeCreated
  world := c.world

variable {R' : Type} {k : Option (Constraint F)} {l : R'} {g g' : RngOps R' F} {fuel : Nat}
  {env : Env n F R}

theorem printFinalInfo_recast (c : CMAES n F R) (rs : List TerminationReason) :
    (c.recast k l).printFinalInfo rs = (c.printFinalInfo rs).recast k l := by
  unfold CMAES.printFinalInfo
  by_cases h : c.sampler.functionEvals ≠ c.lastPrintEvals
  · have h' : (c.recast k l).sampler.functionEvals ≠ (c.recast k l).lastPrintEvals := h
    simp only [if_pos h, if_pos h']
    rfl
  · have h' : ¬ (c.recast k l).sampler.functionEvals ≠ (c.recast k l).lastPrintEvals := h
    simp only [if_neg h, if_neg h']
    rfl

theorem autoPlot_recast (c : CMAES n F R) :
    (c.recast k l).autoPlot = (c.autoPlot >>= fun d => .ok (d.recast k l)) := by
  unfold CMAES.autoPlot
  have e : (c.recast k l).plot = c.plot := rfl
  rw [e]
  cases c.plot with
  | none => rfl
  | some p =>
    show (if c.state.generation ≤ 1 then _ else _) = _
    by_cases hg : c.state.generation ≤ 1
    · simp only [if_pos hg]; rfl
    · simp only [if_neg hg]
      cases p.nextDataPointEvals with
      | ok m =>
        simp only [Outcome.ok_bind]
        show Outcome.ok (if m ≤ c.sampler.functionEvals then _ else _) = _
        by_cases hm : m ≤ c.sampler.functionEvals
        · simp only [if_pos hm]; rfl
        · simp only [if_neg hm]
      | panic => rfl
      | diverge => rfl

theorem autoPrint_recast (c : CMAES n F R) :
    (c.recast k l).autoPrint = (c.autoPrint >>= fun d => .ok (d.recast k l)) := by
  unfold CMAES.autoPrint
  have e : (c.recast k l).printGapEvals = c.printGapEvals := rfl
  rw [e]
  cases c.printGapEvals with
  | none => rfl
  | some gap =>
    have e2 : (c.recast k l).lastPrintEvals = c.lastPrintEvals := rfl
    simp only [e2]
    cases usizeAdd c.lastPrintEvals gap with
    | ok m =>
      simp only [Outcome.ok_bind]
      show Outcome.ok (if m ≤ c.sampler.functionEvals then _ else
        if c.state.generation < 4 then _ else _) = _
      by_cases hm : m ≤ c.sampler.functionEvals
      · simp only [if_pos hm]; rfl
      · simp only [if_neg hm]
        by_cases hg : c.state.generation < 4
        · simp only [if_pos hg]; rfl
        · simp only [if_neg hg]
    | panic => rfl
    | diverge => rfl

theorem checkTermination_recast (inds : List (EvaluatedPoint n F)) (c : CMAES n F R) :
    (c.recast k l).checkTermination (env.recast g g' fuel) inds =
      (c.checkTermination env inds >>= fun q => .ok (q.1.recast k l, q.2)) := by
  unfold CMAES.checkTermination
  by_cases ht : c.parameters.termination.maxTime.isSome
  · have ht' : (c.recast k l).parameters.termination.maxTime.isSome := ht
    simp only [if_pos ht, if_pos ht']
    generalize hx : TerminationCheck.check env.medianNaN _ = x
    have hx' : TerminationCheck.check (env.recast g g' fuel).medianNaN
        { evals := (c.recast k l).sampler.functionEvals
          elapsed := (World.now (env.recast g g' fuel) (c.recast k l).world).1 - (c.recast k l).timeCreated
          parameters := (c.recast k l).parameters, state := (c.recast k l).state
          history := (c.recast k l).history, individuals := inds } = x := hx
    rw [hx']
    cases x <;> rfl
  · have ht' : ¬ (c.recast k l).parameters.termination.maxTime.isSome := ht
    simp only [if_neg ht, if_neg ht']
    generalize hx : TerminationCheck.check env.medianNaN _ = x
    have hx' : TerminationCheck.check (env.recast g g' fuel).medianNaN
        { evals := (c.recast k l).sampler.functionEvals
          elapsed := (c.recast k l).timeCreated - (c.recast k l).timeCreated
          parameters := (c.recast k l).parameters, state := (c.recast k l).state
          history := (c.recast k l).history, individuals := inds } = x := hx
    rw [hx']
    cases x <;> rfl

theorem nextInternal_recast (tree : SplitTree) (inds : List (EvaluatedPoint n F))
    (c : CMAES n F R) :
    (c.recast k l).nextInternal (env.recast g g' fuel) tree inds =
      (c.nextInternal env tree inds >>= fun q => .ok (q.1.recast k l, q.2)) := by
  unfold CMAES.nextInternal
  show (c.state.update env.eigen tree c.sampler.functionEvals c.parameters inds >>= _) = _
  cases c.state.update env.eigen tree c.sampler.functionEvals c.parameters inds with
  | panic => rfl
  | diverge => rfl
  | ok a =>
    obtain ⟨st, success⟩ := a
    cases success with
    | false => rfl
    | true =>
      simp only [Outcome.ok_bind, if_true]
      show ((({ c with state := st } : CMAES n F R).recast k l).autoPlot >>= _) = _
      rw [autoPlot_recast]
      cases ({ c with state := st } : CMAES n F R).autoPlot with
      | panic => rfl
      | diverge => rfl
      | ok c1 =>
        simp only [Outcome.ok_bind]
        rw [autoPrint_recast]
        cases c1.autoPrint with
        | panic => rfl
        | diverge => rfl
        | ok c2 =>
          simp only [Outcome.ok_bind]
          exact checkTermination_recast inds c2

theorem nextWith_recast (kind : EvalKind) (ys : List (Vec n F)) (r : R) (c : CMAES n F R)
    (l1 : R') :
    (c.recast k l1).nextWith (env.recast g g' fuel) kind ys l =
      (c.nextWith env kind ys r >>= fun q => .ok (q.1.recast k l, q.2)) := by
  have key : ∀ (res : Option (List (EvaluatedPoint n F))) (obj : Obj n F),
      (match res with
        | none =>
          let d : CMAES n F R' :=
            { c.recast k l1 with
              sampler := { (c.recast k l1).sampler with rng := l, obj }
              world := { c.world with steps := c.world.steps + 1 } }
          Outcome.ok (d, some (d.terminationData [.invalidFunctionValue]))
        | some ps => do
          let inds := sortPoints c.parameters.mode ps
          let history ← c.history.update c.parameters.mode inds
          CMAES.nextInternal (env.recast g g' fuel) (env.redTree c.world.steps) inds
            { c.recast k l1 with
              sampler := { (c.recast k l1).sampler with
                rng := l, obj, functionEvals := c.sampler.functionEvals + ps.length }
              world := { c.world with steps := c.world.steps + 1 }, history }) =
      ((match res with
        | none =>
          let d : CMAES n F R :=
            { c with
              sampler := { c.sampler with rng := r, obj }
              world := { c.world with steps := c.world.steps + 1 } }
          Outcome.ok (d, some (d.terminationData [.invalidFunctionValue]))
        | some ps => do
          let inds := sortPoints c.parameters.mode ps
          let history ← c.history.update c.parameters.mode inds
          CMAES.nextInternal env (env.redTree c.world.steps) inds
            { c with
              sampler := { c.sampler with
                rng := r, obj, functionEvals := c.sampler.functionEvals + ps.length }
              world := { c.world with steps := c.world.steps + 1 }, history }) >>=
        fun q => .ok (q.1.recast k l, q.2)) := by
    intro res obj
    cases res with
    | none => rfl
    | some ps =>
      dsimp only
      cases c.history.update c.parameters.mode (sortPoints c.parameters.mode ps) with
      | panic p => rfl
      | diverge => rfl
      | ok hist =>
        simp only [Outcome.ok_bind]
        exact nextInternal_recast (env := env) (l := l) (k := k) (g := g) (g' := g') (fuel := fuel) _ _
          { c with
            sampler := { c.sampler with
              rng := r, obj, functionEvals := c.sampler.functionEvals + ps.length }
            world := { c.world with steps := c.world.steps + 1 }, history := hist }
  unfold CMAES.nextWith
  cases kind with
  | seq => exact key _ _
  | par => exact key _ _

theorem apply_recast {op : Op} (hq : op.Quiet) (c : CMAES n F R) :
    (c.recast k l).apply (env.recast g g' fuel) op =
      (c.apply env op >>= fun q => .ok (q.1.recast k l, q.2)) := by
  cases op with
  | next _ => exact absurd hq id
  | run _ => exact absurd hq id
  | addPlotPoint => rfl
  | clearPlot =>
    simp only [CMAES.apply, CMAES.clearPlot]
    show ((match c.plot with | none => _ | some p => _) >>= _) = _
    cases c.plot with
    | none => rfl
    | some p =>
      dsimp only
      cases p.clear <;> rfl
  | printInitialInfo => rfl
  | printInfo => rfl
  | printFinalInfo rs =>
    simp only [CMAES.apply, printFinalInfo_recast]
    rfl
  | printRunInfo _ => rfl

/-! ### Asking -/

theorem askAll_spec {k : MemConstraint n F} {xs : List (Vec n F)} {order : List Nat}
    {asked asked' : List (Vec n F × Bool)} {bs : List (Nat × Bool)} (ha : AnswersOf k asked)
    (ho : ∀ i ∈ order, i < xs.length) (h : askAll k xs order asked = .ok (bs, asked')) :
    AnswersOf k asked' ∧ bs.map Prod.fst = order ∧
      asked' = asked ++ bs.filterMap fun p => xs[p.1]?.map fun x => (x, p.2) := by
  induction order generalizing asked bs with
  | nil =>
    simp only [askAll, Outcome.ok.injEq, Prod.mk.injEq] at h
    obtain ⟨rfl, rfl⟩ := h
    exact ⟨ha, rfl, by simp⟩
  | cons i is ih =>
    have hi := ho i (by simp)
    simp only [askAll, List.getElem?_eq_getElem hi, Outcome.bind_eq_ok] at h
    obtain ⟨b, hb, ⟨bs', asked1⟩, h1, h⟩ := h
    simp only [Outcome.ok.injEq, Prod.mk.injEq] at h
    obtain ⟨rfl, rfl⟩ := h
    have ha' : AnswersOf k (asked ++ [(xs[i], b)]) := by
      intro j hj
      rw [List.length_append, List.length_singleton] at hj
      by_cases hj' : j < asked.length
      · rw [List.take_append_of_le_length (by omega), List.getElem_append_left hj']
        exact ha j hj'
      · have : j = asked.length := by omega
        subst this
        simp [hb]
    obtain ⟨h2, h3, h4⟩ := ih ha' (fun j hj => ho j (by simp [hj])) h1
    refine ⟨h2, by simp [h3], ?_⟩
    rw [h4, List.append_assoc]
    simp [List.getElem?_eq_getElem hi]

theorem keepAccepted_map {m : Nat} (f : Vec n F → Vec m F) (zs : List (Vec n F))
    (bs : List (Nat × Bool)) :
    keepAccepted (zs.map f) bs = (keepAccepted zs bs).map f := by
  unfold keepAccepted
  rw [List.length_map, List.map_filterMap]
  congr 1
  funext i
  split <;> simp

theorem lookup_of_nodup {bs : List (Nat × Bool)} (h : (bs.map Prod.fst).Nodup) {i : Nat} {b : Bool}
    (hb : (i, b) ∈ bs) : bs.lookup i = some b := by
  induction bs with
  | nil => simp at hb
  | cons p bs ih =>
    obtain ⟨j, b'⟩ := p
    simp only [List.map_cons, List.nodup_cons] at h
    rcases List.mem_cons.mp hb with hb' | hb'
    · obtain ⟨rfl, rfl⟩ := Prod.mk.inj hb'
      simp [List.lookup]
    · have hne : (i == j) = false := by
        rw [beq_eq_false_iff_ne]
        rintro rfl
        exact h.1 (List.mem_map.mpr ⟨(i, b), hb', rfl⟩)
      simp only [List.lookup, hne]
      exact ih h.2 hb'

theorem keepAccepted_order {ys : List (Vec n F)} {bs : List (Nat × Bool)} {order : List Nat}
    (hb : bs.map Prod.fst = order) (ho : order.Perm (List.range ys.length)) :
    (order.filterMap fun i => if bs.lookup i = some true then ys[i]? else none) =
      (bs.filter fun p => p.2).filterMap fun p => ys[p.1]? := by
  have hn : (bs.map Prod.fst).Nodup := by
    rw [hb]; exact ho.nodup_iff.mpr List.nodup_range
  rw [← hb, List.filterMap_map, List.filterMap_filter]
  refine List.filterMap_congr fun p hp => ?_
  obtain ⟨i, b⟩ := p
  simp only [Function.comp, lookup_of_nodup hn hp, Option.some.injEq]

theorem keepAccepted_perm {ys : List (Vec n F)} {bs : List (Nat × Bool)} {order : List Nat}
    (hb : bs.map Prod.fst = order) (ho : order.Perm (List.range ys.length)) :
    (keepAccepted ys bs).Perm ((bs.filter fun p => p.2).filterMap fun p => ys[p.1]?) := by
  rw [← keepAccepted_order hb ho]
  exact (ho.filterMap _).symm

theorem acceptedPoints_append (a b : List (Vec n F × Bool)) :
    acceptedPoints (a ++ b) = acceptedPoints a ++ acceptedPoints b := by
  unfold acceptedPoints
  rw [List.filter_append, List.map_append]

theorem acceptedPoints_asked (xs : List (Vec n F)) (bs : List (Nat × Bool)) :
    acceptedPoints (bs.filterMap fun p => xs[p.1]?.map fun x => (x, p.2)) =
      (bs.filter fun p => p.2).filterMap fun p => xs[p.1]? := by
  induction bs with
  | nil => rfl
  | cons p bs ih =>
    obtain ⟨i, b⟩ := p
    unfold acceptedPoints at ih ⊢
    cases hx : xs[i]? with
    | none => cases b <;> simp [hx, ih]
    | some x => cases b <;> simp [hx, ih]

/-- What a round does. -/
theorem sampleRoundM_spec {rng : RngOps R F} {T : Mat n F} {mean : Vec n F} {sigma : F}
    {k : MemConstraint n F} {order : List Nat} {m : Nat} {r r' : R}
    {asked asked' : List (Vec n F × Bool)} {new : List (Vec n F)} (ha : AnswersOf k asked)
    (ho : order.Perm (List.range m))
    (h : sampleRoundM rng T mean sigma (some k) order m r asked = .ok (new, r', asked')) :
    AnswersOf k asked' ∧ ∃ (zs : List (Vec n F)) (qs : List (Vec n F × Bool)), new = zs.map T.mulVec ∧ asked' = asked ++ qs ∧
      (new.map (toPoint · mean sigma)).Perm (acceptedPoints qs) ∧
      (order = List.range m → new.map (toPoint · mean sigma) = acceptedPoints qs) ∧
      qs.length = m ∧ new.length ≤ m := by
  have hlen := drawVecs_length (n := n) rng m r
  unfold sampleRoundM at h
  generalize drawVecs (n := n) rng m r = q at h hlen
  obtain ⟨zs, r1⟩ := q
  simp only at h hlen
  simp only [Outcome.bind_eq_ok] at h
  obtain ⟨⟨bs, asked1⟩, h1, h⟩ := h
  simp only [Outcome.ok.injEq, Prod.mk.injEq] at h
  obtain ⟨rfl, rfl, rfl⟩ := h
  have hm : m = (List.map (toPoint · mean sigma) (List.map T.mulVec zs)).length := by simp [hlen]
  obtain ⟨h2, h3, h4⟩ := askAll_spec ha (fun i hi => by
    have := ho.subset hi
    rw [List.mem_range] at this
    omega) h1
  have hm' : order.Perm (List.range (List.map (toPoint · mean sigma)
      (List.map T.mulVec zs)).length) := by rw [← hm]; exact ho
  refine ⟨h2, keepAccepted zs bs, _, keepAccepted_map T.mulVec zs bs, h4, ?_, ?_, ?_, ?_⟩
  · rw [acceptedPoints_asked, ← keepAccepted_map (toPoint · mean sigma)]
    exact keepAccepted_perm h3 hm'
  · intro hr
    rw [acceptedPoints_asked, ← keepAccepted_map (toPoint · mean sigma),
      ← keepAccepted_order h3 hm', hr, hm]
    rfl
  · have hl : bs.length = m := by
      have := congrArg List.length h3
      rw [List.length_map, ho.length_eq, List.length_range] at this
      exact this
    have hall : ∀ p ∈ bs, p.1 < m := by
      intro p hp
      have h5 : p.1 ∈ order := by rw [← h3]; exact List.mem_map_of_mem hp
      simpa using ho.subset h5
    rw [← hl]
    clear h1 h3 h4 hl
    induction bs with
    | nil => rfl
    | cons p bs ih =>
      have hp := hall p (by simp)
      rw [List.filterMap_cons, List.getElem?_eq_getElem (by omega)]
      simp only [Option.map_some, List.length_cons, Nat.add_right_cancel_iff]
      exact ih fun q hq => hall q (by simp [hq])
  · refine (List.length_filterMap_le _ _).trans ?_
    simp [hlen]

/-- What the resampling loop does. -/
theorem resampleM_spec {rng : RngOps R F} {T : Mat n F} {mean : Vec n F} {sigma : F}
    {k : MemConstraint n F} {order : Nat → Nat → List Nat} {mx : Option Nat} {pop fuel i : Nat}
    {y ys : List (Vec n F)} {r r' : R} {asked asked' : List (Vec n F × Bool)}
    (ha : AnswersOf k asked) (ho : ∀ i m, (order i m).Perm (List.range m))
    (h : resampleM rng T mean sigma k order mx pop fuel i y r asked = .ok (ys, r', asked')) :
    AnswersOf k asked' ∧ ∃ (zs : List (Vec n F)) (qs : List (Vec n F × Bool))
        (extra : List (Vec n F)), ys = y ++ zs.map T.mulVec ∧ ys.length = pop ∧
      asked' = asked ++ qs ∧
      ((zs.map T.mulVec).map (toPoint · mean sigma)).Perm (acceptedPoints qs ++ extra) ∧
      ((∀ i m, order i m = List.range m) →
        (zs.map T.mulVec).map (toPoint · mean sigma) = acceptedPoints qs ++ extra) ∧
      (extra ≠ [] → ∃ m, mx = some m) ∧
      (∀ m, mx = some m → qs.length ≤ (m - i) * (pop - y.length)) := by
  induction fuel generalizing i y r asked with
  | zero => simp [resampleM] at h
  | succ fuel ih =>
    unfold resampleM at h
    by_cases h0 : pop < y.length
    · simp [h0] at h
    simp only [if_neg h0] at h
    by_cases h1 : pop - y.length = 0
    · simp only [if_pos h1, Outcome.ok.injEq, Prod.mk.injEq] at h
      obtain ⟨rfl, rfl, rfl⟩ := h
      exact ⟨ha, [], [], [], by simp, by omega, by simp, by simp [acceptedPoints],
        by simp [acceptedPoints], by simp, by simp⟩
    simp only [if_neg h1, Outcome.bind_eq_ok] at h
    obtain ⟨⟨new, r1, asked1⟩, h2, h3⟩ := h
    have cases2 : (∃ m, mx = some m ∧ m ≤ i ∧
          sampleRoundM rng T mean sigma none (order i (pop - y.length)) (pop - y.length) r asked =
            .ok (new, r1, asked1)) ∨
        ((∀ m, mx = some m → i < m) ∧ sampleRoundM rng T mean sigma (some k)
          (order i (pop - y.length)) (pop - y.length) r asked = .ok (new, r1, asked1)) := by
      cases mx with
      | none => exact .inr ⟨by simp, h2⟩
      | some m =>
        by_cases hm : m ≤ i
        · simp only [if_pos hm] at h2
          exact .inl ⟨m, rfl, hm, h2⟩
        · simp only [if_neg hm] at h2
          refine .inr ⟨?_, h2⟩
          intro m' hm'
          obtain rfl := Option.some.inj hm'
          omega
    rcases cases2 with ⟨m, rfl, hm, h2⟩ | ⟨hm, h2⟩
    · have hlen := drawVecs_length (n := n) rng (pop - y.length) r
      unfold sampleRoundM at h2
      generalize drawVecs (n := n) rng (pop - y.length) r = q at h2 hlen
      obtain ⟨zs, r2⟩ := q
      simp only [Outcome.ok.injEq, Prod.mk.injEq] at h2 hlen
      obtain ⟨rfl, rfl, rfl⟩ := h2
      cases fuel with
      | zero => simp [resampleM] at h3
      | succ fuel =>
        unfold resampleM at h3
        have e1 : ¬ pop < (y ++ List.map T.mulVec zs).length := by simp [hlen]; omega
        have e2 : pop - (y ++ List.map T.mulVec zs).length = 0 := by simp [hlen]; omega
        simp only [if_neg e1, if_pos e2, Outcome.ok.injEq, Prod.mk.injEq] at h3
        obtain ⟨rfl, rfl, rfl⟩ := h3
        refine ⟨ha, zs, [], (zs.map T.mulVec).map (toPoint · mean sigma), rfl, by omega, by simp,
          by simp [acceptedPoints], by simp [acceptedPoints], fun _ => ⟨m, rfl⟩, by simp⟩
    · obtain ⟨a1, zs, qs, a2, rfl, a3, a4, a5, a6⟩ := sampleRoundM_spec ha (ho _ _) h2
      obtain ⟨b1, zs', qs', extra, b2, b3, b4, b5, b6, b7, b8⟩ := ih a1 h3
      refine ⟨b1, zs ++ zs', qs ++ qs', extra, ?_, b3, ?_, ?_, ?_, b7, ?_⟩
      · rw [b2, a2, List.map_append, List.append_assoc]
      · rw [b4, List.append_assoc]
      · rw [List.map_append, List.map_append, acceptedPoints_append, List.append_assoc, ← a2]
        exact a3.append b5
      · intro hr
        rw [List.map_append, List.map_append, acceptedPoints_append, List.append_assoc, ← a2,
          a4 (hr _ _), b6 hr]
      · intro m hmx
        have h4 : qs'.length ≤ (m - (i + 1)) * (pop - (y ++ new).length) := b8 m hmx
        have h5 := hm m hmx
        rw [List.length_append, a5]
        have h6 : (m - (i + 1)) * (pop - (y ++ new).length) ≤ (m - (i + 1)) * (pop - y.length) := by
          refine Nat.mul_le_mul_left _ ?_
          rw [List.length_append]; omega
        have h7 : (m - i) * (pop - y.length) =
            (m - (i + 1)) * (pop - y.length) + (pop - y.length) := by
          have : m - i = (m - (i + 1)) + 1 := by omega
          rw [this, Nat.add_mul, Nat.one_mul]
        omega

end Cmaes
