import Verif.Lemmas.SearchSim
import Verif.Spec.Termination
import Verif.Props.Sampling
import Verif.Props.Invariance

/-!
# What a generation's termination check reports
-/

set_option linter.unusedSectionVars false

namespace Cmaes
variable {n : Nat} {F R : Type} [Flt F]

/-- The reasons found by a check, one by one. -/
theorem check_mem {m : List F → Outcome F} {t : TerminationCheck n F}
    {l : List TerminationReason} (h : t.check m = .ok l) :
    (.maxFunctionEvals ∈ l ↔ t.maxFunctionEvals = true) ∧
    (.maxGenerations ∈ l ↔ t.maxGenerations = true) ∧
    (.maxTime ∈ l ↔ t.maxTime = true) ∧
    (.funTarget ∈ l ↔ t.funTarget = true) ∧
    (∃ tf, t.tolFun = .ok tf ∧ (.tolFunHist ∈ l ↔ .tolFunHist ∈ tf) ∧
      (.tolFun ∈ l ↔ .tolFun ∈ tf) ∧ (.tolFunRel ∈ l ↔ .tolFunRel ∈ tf)) ∧
    (.tolX ∈ l ↔ t.tolX = true) ∧
    (.tolConditionCov ∈ l ↔ t.tolConditionCov = true) ∧
    (∃ b, t.noEffectAxis = .ok b ∧ (.noEffectAxis ∈ l ↔ b = true)) ∧
    (.noEffectCoord ∈ l ↔ t.noEffectCoord = true) ∧
    (∃ b, t.tolStagnation m = .ok b ∧ (.tolStagnation ∈ l ↔ b = true)) ∧
    (∃ b, t.tolXUp = .ok b ∧ (.tolXUp ∈ l ↔ b = true)) := by
  simp only [TerminationCheck.check, Outcome.bind_eq_ok, Outcome.ok.injEq] at h
  obtain ⟨tf, h1, ne, h2, ts, h3, tx, h4, h⟩ := h
  subst h
  have hs := tolFun_sublist h1
  have hno : ∀ r, r ∉ ([.tolFunHist, .tolFun, .tolFunRel] : List TerminationReason) → r ∉ tf :=
    fun r hr hm => hr (hs.mem hm)
  have e : ∀ {r : TerminationReason}, r ∉ ([.tolFunHist, .tolFun, .tolFunRel] : List _) →
      (r ∈ tf ↔ False) := fun hr => iff_false_intro (hno _ hr)
  refine ⟨?_, ?_, ?_, ?_, ⟨tf, h1, ?_, ?_, ?_⟩, ?_, ?_, ⟨ne, h2, ?_⟩, ?_, ⟨ts, h3, ?_⟩,
    ⟨tx, h4, ?_⟩⟩
  all_goals simp only [List.mem_append, mem_reason]
  all_goals first
    | (rw [e (by decide)]; simp)
    | simp

variable [FltLaws F] {env : Env n F R} {obj : Obj n F} {o : Options n F}
  {t : List (NextCall n F)} {s : NextCall n F} {c : CMAES n F R}

/-- The last `next` call of an execution, if it completed a generation. -/
theorem checked_next (h : History.Of env obj o (t ++ [s]) c) (hs : s.Checked) :
    ∃ c1 ps inds elapsed, History.Of env obj o t c1 ∧
      Sampled s.kind c1.state.mean c1.state.sigma o.mode o.populationSize s.calls ps inds ∧
      c.parameters = Parameters.fromOptions o (o.seed.getD env.randomSeed) ∧
      c.state.generation = c1.state.generation + 1 ∧
      c.sampler.functionEvals = c1.sampler.functionEvals + o.populationSize ∧
      c.world.clockReads = c1.world.clockReads + (if o.maxTime.isSome then 1 else 0) ∧
      (o.maxTime.isSome → elapsed = env.clock c1.world.clockReads - c1.timeCreated) ∧
      c.timeCreated = c1.timeCreated ∧
      c1.history.update o.mode inds = .ok c.history ∧
      c1.state.update env.eigen (env.redTree c1.world.steps) c.sampler.functionEvals c.parameters
        inds = .ok (c.state, true) ∧
      (checkInput c elapsed inds).check env.medianNaN = .ok s.reasons ∧
      (s.result = none ↔ s.reasons = []) := by
  obtain ⟨w, c0, h0, he⟩ := h
  obtain ⟨c1, c2, h1, h2, h3, h4⟩ := he.last_next
  have hof : History.Of env obj o t c1 := ⟨w, c0, h0, h1⟩
  obtain ⟨gs, i, _⟩ := fresh_inv hof
  have hr := h4.nil_sameRun
  obtain ⟨res, hres, hp, hst, _, htc, hcase⟩ := next_core h2
  have hmode : c1.parameters.mode = o.mode := by rw [i.parameters]; rfl
  have hmt : c1.parameters.termination.maxTime = o.maxTime := by rw [i.parameters]; rfl
  rcases hcase with ⟨_, _, _, _, hbad⟩ | ⟨inds, b, hri, hh, hu, hf, ht⟩
  · exact absurd ⟨_, hbad, by simp [CMAES.terminationData]⟩ hs.1
  subst hri
  obtain ⟨ys, calls, _, hl, _, hcc⟩ := sample_cases hres
  have e : calls = s.calls := List.append_cancel_left (hl.symm.trans h3)
  subst e
  rcases hcc with ⟨hn, _⟩ | ⟨ps, inds', hsome, hsam, _, hev⟩
  · simp at hn
  injection hsome with hsome
  subst hsome
  rw [hmode, i.populationSize] at hsam
  rw [i.populationSize] at hev
  cases b with
  | false => exact absurd ⟨_, (hf rfl).1, by simp [CMAES.terminationData]⟩ hs.2
  | true =>
    obtain ⟨h5, reasons, h6, h7⟩ := ht rfl
    have hreasons : s.reasons = reasons := by
      unfold NextCall.reasons
      rw [h7]
      cases reasons <;> rfl
    have hgen := update_generation hu
    refine ⟨c1, ps, inds, _, hof, hsam, by rw [hr.parameters, hp, i.parameters],
      by rw [hr.state, hgen]; rfl, by rw [hr.sampler, hev],
      by rw [hr.clockReads, h5, hmt], ?_, by rw [hr.timeCreated, htc],
      by rw [hr.history, ← hmode]; exact hh, ?_,
      (?_ : (checkInput c (if c1.parameters.termination.maxTime.isSome then
                env.clock c1.world.clockReads - c1.timeCreated else 0) inds).check env.medianNaN =
                .ok s.reasons), ?_⟩
    · intro hm
      rw [hmt, if_pos hm]
    · rw [hr.state, hr.sampler, hr.parameters, hp]; exact hu
    · rw [hreasons, ← h6]
      unfold checkInput
      rw [hr.sampler, hr.parameters, hr.state, hr.history]
    · rw [hreasons, h7]
      cases reasons <;> simp

end Cmaes
