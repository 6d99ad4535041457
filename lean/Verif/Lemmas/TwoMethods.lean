import Verif.Model.TwoMethods
import Verif.Lemmas.SearchSim

/-!
# The search depends on the objective only through the values it returned
-/

namespace Cmaes
variable {n : Nat} {F R : Type} [Flt F]

/-- The objective with another function. -/
def Obj.withF (f : List (Vec n F × F) → Vec n F → F) (o : Obj n F) : Obj n F := { o with f }

/-- The two functions agree after `a` calls up to before `b` calls. -/
def AgreeOn (f g : List (Vec n F × F) → Vec n F → F) (a b : Nat) : Prop :=
  ∀ log x, a ≤ log.length → log.length < b → f log x = g log x

theorem AgreeOn.mono {f g : List (Vec n F × F) → Vec n F → F} {a b a' b' : Nat}
    (h : AgreeOn f g a b) (ha : a ≤ a') (hb : b' ≤ b) : AgreeOn f g a' b' :=
  fun log x h1 h2 => h log x (ha.trans h1) (h2.trans_le hb)

variable {f : List (Vec n F × F) → Vec n F → F}

theorem new_log_length (y mean : Vec n F) (sigma : F) (o : Obj n F) :
    (EvaluatedPoint.new y mean sigma o).2.log.length = o.log.length + 1 ∧
      (EvaluatedPoint.new y mean sigma o).2.f = o.f := by
  obtain ⟨v, _, h, _⟩ := new_spec y mean sigma o
  simp [h]

theorem new_withF (y mean : Vec n F) (sigma : F) (o : Obj n F)
    (h : ∀ x, f o.log x = o.f o.log x) :
    EvaluatedPoint.new y mean sigma (o.withF f) =
      ((EvaluatedPoint.new y mean sigma o).1, (EvaluatedPoint.new y mean sigma o).2.withF f) := by
  unfold EvaluatedPoint.new Obj.call Obj.withF
  simp only [h]
  split <;> rfl

theorem evalSeq_log_le (mean : Vec n F) (sigma : F) (ys : List (Vec n F)) (o : Obj n F) :
    o.log.length ≤ (evalSeq mean sigma ys o).2.log.length ∧
      (evalSeq mean sigma ys o).2.f = o.f := by
  induction ys generalizing o with
  | nil => simp [evalSeq]
  | cons y ys ih =>
    have h := new_log_length y mean sigma o
    unfold evalSeq
    generalize EvaluatedPoint.new y mean sigma o = q at h
    obtain ⟨_ | p, o1⟩ := q
    · simp only at h ⊢; exact ⟨by omega, h.2⟩
    · have h1 := ih o1
      simp only at h ⊢
      generalize evalSeq mean sigma ys o1 = q at h1
      obtain ⟨_ | ps, o2⟩ := q <;> simp only at h1 ⊢ <;> exact ⟨by omega, h1.2.trans h.2⟩

theorem evalSeq_withF (mean : Vec n F) (sigma : F) (ys : List (Vec n F)) (o : Obj n F)
    (h : AgreeOn f o.f o.log.length (evalSeq mean sigma ys o).2.log.length) :
    evalSeq mean sigma ys (o.withF f) =
      ((evalSeq mean sigma ys o).1, (evalSeq mean sigma ys o).2.withF f) := by
  induction ys generalizing o with
  | nil => rfl
  | cons y ys ih =>
    have hl := new_log_length y mean sigma o
    have h1 : ∀ x, f o.log x = o.f o.log x := by
      intro x
      refine h _ _ le_rfl ?_
      unfold evalSeq
      generalize EvaluatedPoint.new y mean sigma o = q at hl
      obtain ⟨_ | p, o1⟩ := q
      · simp only at hl ⊢; omega
      · have h2 := evalSeq_log_le mean sigma ys o1
        simp only at hl ⊢
        generalize evalSeq mean sigma ys o1 = q at h2
        obtain ⟨_ | ps, o2⟩ := q <;> simp only at h2 ⊢ <;> omega
    unfold evalSeq at h ⊢
    rw [new_withF y mean sigma o h1]
    generalize EvaluatedPoint.new y mean sigma o = q at hl h
    obtain ⟨_ | p, o1⟩ := q
    · rfl
    · simp only at hl h ⊢
      have h2 := ih o1 (by
        rw [hl.2]
        refine h.mono (by omega) ?_
        generalize evalSeq mean sigma ys o1 = q
        obtain ⟨_ | ps, o2⟩ := q <;> exact le_rfl)
      rw [h2]
      generalize evalSeq mean sigma ys o1 = q
      obtain ⟨_ | ps, o2⟩ := q <;> rfl

theorem evalOrder_log_le (mean : Vec n F) (sigma : F) (ys : List (Vec n F)) (extra : Nat)
    (is : List Nat) (left : Option Nat) (o : Obj n F) :
    o.log.length ≤ (evalOrder mean sigma ys extra is left o).2.log.length := by
  induction is generalizing left o with
  | nil => simp [evalOrder]
  | cons i is ih =>
    rcases left with _ | _ | k
    all_goals simp only [evalOrder, le_refl]
    all_goals
      cases hy : ys[i]? with
      | none => exact ih _ _
      | some y =>
        have h := (new_log_length y mean sigma o).1
        refine le_trans (by omega) (ih _ _)

theorem evalOrder_withF (mean : Vec n F) (sigma : F) (ys : List (Vec n F)) (extra : Nat)
    (is : List Nat) (left : Option Nat) (o : Obj n F)
    (h : AgreeOn f o.f o.log.length (evalOrder mean sigma ys extra is left o).2.log.length) :
    evalOrder mean sigma ys extra is left (o.withF f) =
      ((evalOrder mean sigma ys extra is left o).1,
        (evalOrder mean sigma ys extra is left o).2.withF f) := by
  induction is generalizing left o with
  | nil => rfl
  | cons i is ih =>
    rcases left with _ | _ | k
    · simp only [evalOrder] at h ⊢
      cases hy : ys[i]? with
      | none => simp only [hy] at h ⊢; exact ih _ _ h
      | some y =>
        simp only [hy] at h ⊢
        have hl := new_log_length y mean sigma o
        rw [new_withF y mean sigma o fun x => h _ _ le_rfl
          (lt_of_lt_of_le (by omega) (evalOrder_log_le ..))]
        simp only
        rw [ih _ _ (by rw [hl.2]; exact h.mono (by omega) le_rfl)]
    · rfl
    · simp only [evalOrder] at h ⊢
      cases hy : ys[i]? with
      | none => simp only [hy] at h ⊢; exact ih _ _ h
      | some y =>
        simp only [hy] at h ⊢
        have hl := new_log_length y mean sigma o
        rw [new_withF y mean sigma o fun x => h _ _ le_rfl
          (lt_of_lt_of_le (by omega) (evalOrder_log_le ..))]
        simp only
        rw [ih _ _ (by rw [hl.2]; exact h.mono (by omega) le_rfl)]

theorem evalPar_withF (s : Sched) (mean : Vec n F) (sigma : F) (ys : List (Vec n F)) (o : Obj n F)
    (h : AgreeOn f o.f o.log.length (evalPar s mean sigma ys o).2.log.length) :
    evalPar s mean sigma ys (o.withF f) =
      ((evalPar s mean sigma ys o).1, (evalPar s mean sigma ys o).2.withF f) := by
  have e : (evalPar s mean sigma ys o).2 =
      (evalOrder mean sigma ys s.extra (s.order ys.length) none o).2 := by
    unfold evalPar; simp only; split <;> rfl
  unfold evalPar
  rw [evalOrder_withF _ _ _ _ _ _ _ (by rw [e] at h; exact h)]
  simp only
  split <;> rfl

/-- The sampler with another function. -/
def Sampler.withF (f : List (Vec n F × F) → Vec n F → F) (s : Sampler n F R) : Sampler n F R :=
  { s with obj := s.obj.withF f }

theorem sample_withF (env : Env n F R) (kind : EvalKind) (sched : Sched) (tr : Mat n F)
    (mean : Vec n F) (sigma : F) (mode : Mode) (s : Sampler n F R)
    (h : ∀ res s', s.sample env kind sched tr mean sigma mode = .ok (res, s') →
      AgreeOn f s.obj.f s.obj.log.length s'.obj.log.length) :
    (s.withF f).sample env kind sched tr mean sigma mode =
      s.sample env kind sched tr mean sigma mode >>= fun q => .ok (q.1, q.2.withF f) := by
  unfold Sampler.sample at h ⊢
  simp only [Sampler.withF]
  cases hr : resample env.rng tr mean sigma s.constraints s.maxResamples s.populationSize
      env.resampleFuel 0 [] s.rng with
  | panic p => rfl
  | diverge => rfl
  | ok q =>
    obtain ⟨ys, rng⟩ := q
    rw [hr] at h
    simp only [Outcome.ok_bind] at h ⊢
    cases kind with
    | seq =>
      simp only at h ⊢
      rw [evalSeq_withF mean sigma ys s.obj (by
        generalize evalSeq mean sigma ys s.obj = q at h
        obtain ⟨_ | ps, o⟩ := q <;> exact h _ _ rfl)]
      generalize evalSeq mean sigma ys s.obj = q
      obtain ⟨_ | ps, o⟩ := q <;> rfl
    | par =>
      simp only at h ⊢
      rw [evalPar_withF sched mean sigma ys s.obj (by
        generalize evalPar sched mean sigma ys s.obj = q at h
        obtain ⟨_ | ps, o⟩ := q <;> exact h _ _ rfl)]
      generalize evalPar sched mean sigma ys s.obj = q
      obtain ⟨_ | ps, o⟩ := q <;> rfl

omit [Flt F] in
@[simp] theorem withF_sampler (c : CMAES n F R) : (c.withF f).sampler = c.sampler.withF f := rfl

omit [Flt F] in
@[simp] theorem withF_withF (g : List (Vec n F × F) → Vec n F → F) (c : CMAES n F R) :
    (c.withF g).withF f = c.withF f := rfl

omit [Flt F] in
@[simp] theorem withF_self (c : CMAES n F R) : c.withF c.sampler.obj.f = c := rfl

theorem addPlotPoint_withF (c : CMAES n F R) :
    (c.withF f).addPlotPoint = c.addPlotPoint.withF f := rfl

theorem printInfo_withF (c : CMAES n F R) : (c.withF f).printInfo = c.printInfo.withF f := rfl

theorem printInitialInfo_withF (c : CMAES n F R) :
    (c.withF f).printInitialInfo = c.printInitialInfo.withF f := rfl

theorem printFinalInfo_withF (c : CMAES n F R) (rs : List TerminationReason) :
    (c.withF f).printFinalInfo rs = (c.printFinalInfo rs).withF f := by
  unfold CMAES.printFinalInfo
  by_cases h : c.sampler.functionEvals ≠ c.lastPrintEvals
  · have h' : (c.withF f).sampler.functionEvals ≠ (c.withF f).lastPrintEvals := h
    simp only [if_pos h, if_pos h']
    rfl
  · have h' : ¬ (c.withF f).sampler.functionEvals ≠ (c.withF f).lastPrintEvals := h
    simp only [if_neg h, if_neg h']
    rfl

theorem autoPlot_withF (c : CMAES n F R) :
    (c.withF f).autoPlot = c.autoPlot >>= fun d => .ok (d.withF f) := by
  unfold CMAES.autoPlot
  change (match c.plot with | none => _ | some p => _) = _
  cases c.plot with
  | none => rfl
  | some p =>
    change (if c.state.generation ≤ 1 then _ else _) = _
    by_cases h : c.state.generation ≤ 1
    · simp only [if_pos h]; rfl
    · simp only [if_neg h]
      cases p.nextDataPointEvals with
      | panic p => rfl
      | diverge => rfl
      | ok k =>
        simp only [Outcome.ok_bind]
        change Outcome.ok (if k ≤ c.sampler.functionEvals then _ else _) = _
        by_cases h : k ≤ c.sampler.functionEvals
        · simp only [if_pos h]; rfl
        · simp only [if_neg h]

theorem autoPrint_withF (c : CMAES n F R) :
    (c.withF f).autoPrint = c.autoPrint >>= fun d => .ok (d.withF f) := by
  unfold CMAES.autoPrint
  change (match c.printGapEvals with | none => _ | some p => _) = _
  cases c.printGapEvals with
  | none => rfl
  | some gap =>
    simp only [bind_assoc]
    change (usizeAdd c.lastPrintEvals gap >>= _) = _
    congr 1
    funext k
    simp only [Outcome.ok_bind]
    change Outcome.ok (if k ≤ c.sampler.functionEvals then _ else
      if c.state.generation < 4 then _ else _) = _
    by_cases h : k ≤ c.sampler.functionEvals
    · simp only [if_pos h]; rfl
    · simp only [if_neg h]
      by_cases h : c.state.generation < 4
      · simp only [if_pos h]; rfl
      · simp only [if_neg h]

theorem checkTermination_withF (env : Env n F R) (inds : List (EvaluatedPoint n F))
    (c : CMAES n F R) :
    (c.withF f).checkTermination env inds =
      c.checkTermination env inds >>= fun q => .ok (q.1.withF f, q.2) := by
  unfold CMAES.checkTermination
  simp only [bind_assoc]
  rfl

theorem nextInternal_withF (env : Env n F R) (tree : SplitTree) (inds : List (EvaluatedPoint n F))
    (c : CMAES n F R) :
    (c.withF f).nextInternal env tree inds =
      c.nextInternal env tree inds >>= fun q => .ok (q.1.withF f, q.2) := by
  unfold CMAES.nextInternal
  simp only [bind_assoc]
  change (c.state.update env.eigen tree c.sampler.functionEvals c.parameters inds >>= _) = _
  congr 1
  funext ⟨st, success⟩
  cases success with
  | false => rfl
  | true =>
    have h := autoPlot_withF (f := f) { c with state := st }
    simp only [if_true, bind_assoc]
    change ((CMAES.withF f { c with state := st }).autoPlot >>= _) = _
    rw [h]
    simp only [bind_assoc]
    congr 1
    funext d
    simp only [Outcome.ok_bind]
    rw [autoPrint_withF]
    simp only [bind_assoc]
    congr 1
    funext e
    simp only [Outcome.ok_bind]
    exact checkTermination_withF env inds e

/-- `next` with another function that returns the same values for the calls made. -/
theorem next_withF (env : Env n F R) (kind : EvalKind) (c : CMAES n F R)
    (h : ∀ res s', c.sampler.sample env kind (env.sched c.world.steps) c.state.cov.transform
      c.state.mean c.state.sigma c.parameters.mode = .ok (res, s') →
      AgreeOn f c.sampler.obj.f c.sampler.obj.log.length s'.obj.log.length) :
    (c.withF f).next env kind = c.next env kind >>= fun q => .ok (q.1.withF f, q.2) := by
  unfold CMAES.next
  simp only [bind_assoc]
  change (Sampler.sample env kind (env.sched c.world.steps) c.state.cov.transform
      c.state.mean c.state.sigma c.parameters.mode (c.sampler.withF f) >>= _) = _
  rw [sample_withF _ _ _ _ _ _ _ _ h]
  simp only [bind_assoc]
  congr 1
  funext ⟨res, s'⟩
  simp only [Outcome.ok_bind]
  cases res with
  | none => rfl
  | some inds =>
    simp only [bind_assoc]
    change (c.history.update c.parameters.mode inds >>= _) = _
    congr 1
    funext hist
    exact nextInternal_withF env _ inds
      { c with sampler := s', world := { c.world with steps := c.world.steps + 1 }, history := hist }

/-- A successful `next` with another function that returns the same values for the calls made. -/
theorem next_withF_ok {env : Env n F R} {kind : EvalKind} {c d : CMAES n F R}
    {r : Option (TerminationData n F)} (h : c.next env kind = .ok (d, r))
    (hf : AgreeOn f c.sampler.obj.f c.sampler.obj.log.length d.sampler.obj.log.length) :
    (c.withF f).next env kind = .ok (d.withF f, r) := by
  rw [next_withF env kind c, h]
  · rfl
  · intro res s' hs
    obtain ⟨res', hs', _⟩ := next_core h
    rw [hs] at hs'
    simp only [Outcome.ok.injEq, Prod.mk.injEq] at hs'
    rw [hs'.2]
    exact hf

theorem quiet_withF {env : Env n F R} {op : Op} (hq : op.Quiet) (c : CMAES n F R) :
    (c.withF f).apply env op = c.apply env op >>= fun q => .ok (q.1.withF f, q.2) := by
  cases op with
  | next k => exact hq.elim
  | run k => exact hq.elim
  | addPlotPoint => rfl
  | clearPlot =>
    unfold CMAES.apply CMAES.clearPlot
    simp only [bind_assoc]
    change ((match c.plot with | none => _ | some p => _) >>= _) = _
    cases c.plot with
    | none => rfl
    | some p =>
      simp only [bind_assoc]
      rfl
  | printInitialInfo => rfl
  | printInfo => rfl
  | printFinalInfo rs =>
    unfold CMAES.apply
    simp only [printFinalInfo_withF, Outcome.ok_bind]
  | printRunInfo k => rfl

theorem runInternal_withF (c : CMAES n F R) (d : TerminationData n F) :
    (c.withF f).runInternal d = (c.runInternal d).withF f := by
  unfold CMAES.runInternal
  simp only [addPlotPoint_withF]
  change (if c.addPlotPoint.printGapEvals.isSome then _ else _) = _
  cases c.addPlotPoint.printGapEvals with
  | none => rfl
  | some k => simp only [Option.isSome_some, if_true]; exact printFinalInfo_withF _ _

theorem create_withF (env : Env n F R) (w : World n F) (o : Options n F) (obj : Obj n F) :
    CMAES.create env w (obj.withF f) o = (CMAES.create env w obj o).withF f := by
  unfold CMAES.create
  simp only
  cases o.printGapEvals <;> rfl

theorem newCmaes_withF {env : Env n F R} {w : World n F} {o : Options n F} {obj : Obj n F}
    {c : CMAES n F R} (h : CMAES.new env w obj o = .ok c) :
    CMAES.new env w (obj.withF f) o = .ok (c.withF f) := by
  unfold CMAES.new at h ⊢
  split at h
  · simp at h
  · injection h with h
    rw [← h, create_withF]

end Cmaes
