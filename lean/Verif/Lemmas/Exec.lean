import Verif.Lemmas.Next

/-!
# Executions
-/

set_option linter.unusedSectionVars false

namespace Cmaes
variable {n : Nat} {F R : Type} [Flt F]

/-- The reasons of `check_termination_criteria` in the order in which they are pushed. -/
def checkOrder : List TerminationReason :=
  [.maxFunctionEvals, .maxGenerations, .maxTime, .funTarget, .tolFunHist, .tolFun, .tolFunRel,
    .tolX, .tolConditionCov, .noEffectAxis, .noEffectCoord, .tolStagnation, .tolXUp]

theorem reason_sublist (b : Bool) (r : TerminationReason) :
    (TerminationCheck.reason b r).Sublist [r] := by
  cases b <;> simp [TerminationCheck.reason]

theorem mem_reason {b : Bool} {r r' : TerminationReason} :
    r' ∈ TerminationCheck.reason b r ↔ b = true ∧ r' = r := by
  cases b <;> simp [TerminationCheck.reason]

theorem tolFun_sublist {t : TerminationCheck n F} {l : List TerminationReason}
    (h : t.tolFun = .ok l) : l.Sublist [.tolFunHist, .tolFun, .tolFunRel] := by
  unfold TerminationCheck.tolFun at h
  simp only at h
  split at h
  · simp only [Outcome.bind_eq_ok, Outcome.ok.injEq] at h
    obtain ⟨_, _, _, _, h⟩ := h
    subst h
    exact ((reason_sublist _ _).append (reason_sublist _ _)).append (reason_sublist _ _)
  · injection h with h
    subst h
    simp

theorem check_sublist {m : List F → Outcome F} {t : TerminationCheck n F}
    {l : List TerminationReason} (h : t.check m = .ok l) : l.Sublist checkOrder := by
  simp only [TerminationCheck.check, Outcome.bind_eq_ok, Outcome.ok.injEq] at h
  obtain ⟨tf, h1, _, _, _, _, _, _, h⟩ := h
  subst h
  have := tolFun_sublist h1
  exact ((((((((((reason_sublist _ _).append (reason_sublist _ _)).append
    (reason_sublist _ _)).append (reason_sublist _ _)).append this).append
    (reason_sublist _ _)).append (reason_sublist _ _)).append (reason_sublist _ _)).append
    (reason_sublist _ _)).append (reason_sublist _ _)).append (reason_sublist _ _)

section
variable [FltLaws F]
variable {env : Env n F R} {kind : EvalKind} {c c' : CMAES n F R}
    {calls : List (Vec n F × F)} {ps inds : List (EvaluatedPoint n F)}
    {r : Option (TerminationData n F)}

theorem NextFailed.failed (h : NextFailed kind c c' calls r) :
    (NextCall.mk kind calls r).Failed := ⟨_, h.result, by simp [CMAES.terminationData]⟩

theorem NextFailed.not_posDef (h : NextFailed kind c c' calls r) :
    ¬ (NextCall.mk kind calls r).ReportsPosDef := by
  rintro ⟨d, hd, hm⟩
  rw [h.result] at hd
  have := Option.some.inj hd
  subst this
  simp [CMAES.terminationData] at hm

/-- What a completed `next` returns. -/
theorem NextCompleted.result (h : NextCompleted env kind c c' calls ps inds r) :
    (r = some (c'.terminationData [.posDefCov])) ∨
    (∃ c2 reasons, SameSearch c2 c' ∧
      (checkInput c2 (checkElapsed env c2) inds).check env.medianNaN = .ok reasons ∧
        r = if reasons.isEmpty then none else some (c'.terminationData reasons)) := by
  obtain ⟨success, _, hf, ht⟩ := h.update
  cases success with
  | false => exact .inl (hf rfl).2.2.2.2
  | true =>
    obtain ⟨c1, c2, _, _, h3⟩ := ht rfl
    obtain ⟨hs, _, _, _, _, reasons, h4, h5⟩ := checkTermination_eq_ok h3
    exact .inr ⟨c2, reasons, hs, h4, h5⟩

theorem NextCompleted.not_failed (h : NextCompleted env kind c c' calls ps inds r) :
    ¬ (NextCall.mk kind calls r).Failed := by
  rintro ⟨d, hd, hm⟩
  simp only at hd
  rcases h.result with h | ⟨c2, reasons, _, hc, hr⟩
  · rw [h] at hd
    have := Option.some.inj hd
    subst this
    simp [CMAES.terminationData] at hm
  · rw [hr] at hd
    split at hd
    · simp at hd
    · have := Option.some.inj hd
      subst this
      have := (check_sublist hc).mem hm
      simp [checkOrder] at this

/-- `PosDefCov` is reported exactly if the state update failed. -/
theorem NextCompleted.posDef_iff (h : NextCompleted env kind c c' calls ps inds r) :
    (NextCall.mk kind calls r).ReportsPosDef ↔
    c.state.update env.eigen (env.redTree c.world.steps)
      c'.sampler.functionEvals c.parameters inds = .ok (c'.state, false) := by
  obtain ⟨success, hu, hf, ht⟩ := h.update
  cases success with
  | false =>
    refine ⟨fun _ => hu, fun _ => ⟨_, (hf rfl).2.2.2.2, by simp [CMAES.terminationData]⟩⟩
  | true =>
    rw [hu]
    simp only [Outcome.ok.injEq, Prod.mk.injEq, true_and, Bool.true_eq_false, iff_false]
    rintro ⟨d, hd, hm⟩
    simp only at hd
    obtain ⟨c1, c2, _, _, h3⟩ := ht rfl
    obtain ⟨hs, _, _, _, _, reasons, h4, h5⟩ := checkTermination_eq_ok h3
    rw [h5] at hd
    split at hd
    · simp at hd
    · have := Option.some.inj hd
      subst this
      have := (check_sublist h4).mem hm
      simp [checkOrder] at this

end

theorem Exec.trans {env : Env n F R} {a b c : CMAES n F R} {t u : List (NextCall n F)}
    (h : Exec env a t b) (h' : Exec env b u c) : Exec env a (t ++ u) c := by
  induction h' with
  | refl => simpa using h
  | next _ hn hl ih => rw [← List.append_assoc]; exact .next ih hn hl
  | quiet _ hq ha ih => exact .quiet ih hq ha

/-- Every `next` extends the log of objective calls. -/
theorem next_log [FltLaws F] {env : Env n F R} {kind : EvalKind} {c c' : CMAES n F R}
    {r : Option (TerminationData n F)} (h : c.next env kind = .ok (c', r)) :
    ∃ calls, c'.sampler.obj.log = c.sampler.obj.log ++ calls :=
  (next_cases h).imp fun _ h => h.2.1

/-- A run is a sequence of `next` calls, the last of which returned the result, followed by
plotting and printing. -/
theorem runLoop_exec [FltLaws F] {env : Env n F R} {kind : EvalKind} {fuel : Nat}
    {c c' : CMAES n F R} {d : TerminationData n F}
    (h : c.runLoop env kind fuel = .ok (c', d)) :
    ∃ t calls, Exec env c (t ++ [{ kind, calls, result := some d }]) c' ∧
      ∀ s ∈ t, s.result = none ∧ s.kind = kind := by
  induction fuel generalizing c with
  | zero => simp [CMAES.runLoop] at h
  | succ fuel ih =>
    simp only [CMAES.runLoop, Outcome.bind_eq_ok] at h
    obtain ⟨⟨c1, r⟩, hn, h⟩ := h
    obtain ⟨calls, hl⟩ := next_log hn
    have h1 := Exec.next (Exec.refl (env := env) c) hn hl
    cases r with
    | some d' =>
      simp only [Outcome.ok.injEq, Prod.mk.injEq] at h
      obtain ⟨rfl, rfl⟩ := h
      exact ⟨[], calls, h1, by simp⟩
    | none =>
      obtain ⟨t, calls', h2, h3⟩ := ih h
      refine ⟨{ kind, calls, result := none } :: t, calls', ?_, ?_⟩
      · have := h1.trans h2
        simpa using this
      · intro s hs
        rcases List.mem_cons.mp hs with rfl | hs
        · exact ⟨rfl, rfl⟩
        · exact h3 s hs

theorem runInternal_exec {env : Env n F R} (c : CMAES n F R) (d : TerminationData n F) :
    Exec env c [] (c.runInternal d) := by
  have h1 : Exec env c [] c.addPlotPoint :=
    .quiet (op := .addPlotPoint) (.refl c) trivial rfl
  unfold CMAES.runInternal
  simp only
  split
  · exact .quiet (op := .printFinalInfo d.reasons) h1 trivial rfl
  · exact h1

theorem quiet_exec [FltLaws F] {env : Env n F R} {op : Op} {c c' : CMAES n F R}
    {r : Option (TerminationData n F)} (hq : op.Quiet) (h : c.apply env op = .ok (c', r)) :
    ∃ t, Exec env c t c' ∧ (∀ d, r = some d → ∃ s, t.getLast? = some s ∧ s.result = some d) :=
  ⟨[], .quiet (.refl c) hq h, by rw [(quiet_sameSearch hq h).2]; simp⟩

/-- Every call of the API is an execution. -/
theorem apply_exec [FltLaws F] {env : Env n F R} {op : Op} {c c' : CMAES n F R}
    {r : Option (TerminationData n F)} (h : c.apply env op = .ok (c', r)) :
    ∃ t, Exec env c t c' ∧ (∀ d, r = some d → ∃ s, t.getLast? = some s ∧ s.result = some d) := by
  cases op with
  | next kind =>
    obtain ⟨calls, hl⟩ := next_log h
    exact ⟨_, .next (.refl c) h hl, fun d hd => ⟨_, rfl, hd⟩⟩
  | run kind =>
    simp only [CMAES.apply, CMAES.run, Outcome.bind_eq_ok, Outcome.ok.injEq, Prod.mk.injEq] at h
    obtain ⟨⟨c1, d⟩, ⟨⟨c2, d'⟩, h1, h2⟩, rfl, rfl⟩ := h
    simp only [Prod.mk.injEq] at h2
    obtain ⟨rfl, rfl⟩ := h2
    obtain ⟨t, calls, h2, _⟩ := runLoop_exec h1
    refine ⟨_, h2.trans (runInternal_exec c2 d'), ?_⟩
    intro d hd
    exact ⟨{ kind, calls, result := some d' }, by simp, hd⟩
  | addPlotPoint => exact quiet_exec (op := .addPlotPoint) trivial h
  | clearPlot => exact quiet_exec (op := .clearPlot) trivial h
  | printInitialInfo => exact quiet_exec (op := .printInitialInfo) trivial h
  | printInfo => exact quiet_exec (op := .printInfo) trivial h
  | printRunInfo k => exact quiet_exec (op := .printRunInfo k) trivial h
  | printFinalInfo rs => exact quiet_exec (op := .printFinalInfo rs) trivial h

/-- Every sequence of calls of the API is an execution; everything returned was returned by one of
its `next` calls. -/
theorem applyAll_exec [FltLaws F] {env : Env n F R} {ops : List Op} {c c' : CMAES n F R}
    {rs : List (Option (TerminationData n F))} (h : c.applyAll env ops = .ok (c', rs)) :
    ∃ t, Exec env c t c' ∧ ∀ d, some d ∈ rs → ∃ s ∈ t, s.result = some d := by
  induction ops generalizing c rs with
  | nil =>
    simp only [CMAES.applyAll, Outcome.ok.injEq, Prod.mk.injEq] at h
    obtain ⟨rfl, rfl⟩ := h
    exact ⟨[], .refl c, by simp⟩
  | cons op ops ih =>
    simp only [CMAES.applyAll, Outcome.bind_eq_ok] at h
    obtain ⟨⟨c1, r⟩, h1, ⟨c2, rs'⟩, h2, h3⟩ := h
    simp only [Outcome.ok.injEq, Prod.mk.injEq] at h3
    obtain ⟨rfl, rfl⟩ := h3
    obtain ⟨t, ht, hr⟩ := apply_exec h1
    obtain ⟨u, hu, hr'⟩ := ih h2
    refine ⟨t ++ u, ht.trans hu, ?_⟩
    intro d hd
    rcases List.mem_cons.mp hd with hd | hd
    · obtain ⟨s, hs, hs'⟩ := hr d hd.symm
      exact ⟨s, by simp [List.mem_of_getLast? hs], hs'⟩
    · obtain ⟨s, hs, hs'⟩ := hr' d hd
      exact ⟨s, by simp [hs], hs'⟩

end Cmaes
