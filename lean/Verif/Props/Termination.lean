import Verif.Lemmas.Run
import Verif.Lemmas.Range
import Verif.Witness

/-!
# C17 - C21: termination reasons and the limits of a run
-/

set_option linter.unusedSectionVars false
set_option linter.unusedSimpArgs false

namespace Cmaes
variable {n : Nat} {F R : Type} [Flt F] [FltLaws F]
open FltLaws
variable {env : Env n F R} {obj : Obj n F} {o : Options n F} {t u : List (NextCall n F)}
  {c c' c1 : CMAES n F R} {kind : EvalKind} {s : NextCall n F} {d : TerminationData n F}

/-! ### C17 -/

/-- **C17.** The reasons returned by any `next` (or `next_parallel`) call: there is at least one,
none occurs twice, they are listed in the order of `reasonOrder`, and `InvalidFunctionValue` and
`PosDefCov` occur alone. -/
theorem c17_next (h : c.next env kind = .ok (c', some d)) :
    d.reasons ≠ [] ∧ d.reasons.Nodup ∧ d.reasons.Sublist reasonOrder ∧
      (.invalidFunctionValue ∈ d.reasons → d.reasons = [.invalidFunctionValue]) ∧
      (.posDefCov ∈ d.reasons → d.reasons = [.posDefCov]) := by
  obtain ⟨calls, _, _, _, ys, _, hcase⟩ := next_cases h
  have hr : d.reasons = [.invalidFunctionValue] ∨ d.reasons = [.posDefCov] ∨
      (d.reasons ≠ [] ∧ d.reasons.Sublist checkOrder) := by
    rcases hcase with hf | ⟨ps, inds, hcomp, _⟩
    · have := hf.result
      injection this with this
      exact .inl (by rw [this]; rfl)
    · rcases hcomp.result with hr | ⟨c3, reasons, _, hch, hr⟩
      · injection hr with hr
        exact .inr (.inl (by rw [hr]; rfl))
      · split at hr
        · simp at hr
        · rename_i hne
          injection hr with hr
          refine .inr (.inr ?_)
          rw [hr]
          exact ⟨by simpa [CMAES.terminationData] using hne, check_sublist hch⟩
  rcases hr with hr | hr | ⟨hne, hsub⟩
  · rw [hr]; decide
  · rw [hr]; decide
  · refine ⟨hne, hsub.nodup (by decide), hsub.trans (by decide), ?_, ?_⟩
    · intro hm
      have := hsub.mem hm
      simp [checkOrder] at this
    · intro hm
      have := hsub.mem hm
      simp [checkOrder] at this

/-- **C17 for `run`.** -/
theorem c17_run (h : c.run env kind = .ok (c', d)) :
    d.reasons ≠ [] ∧ d.reasons.Nodup ∧ d.reasons.Sublist reasonOrder ∧
      (.invalidFunctionValue ∈ d.reasons → d.reasons = [.invalidFunctionValue]) ∧
      (.posDefCov ∈ d.reasons → d.reasons = [.posDefCov]) := by
  obtain ⟨t, s, he, _, hd, _⟩ := run_ok h
  obtain ⟨c1, c2, _, h2, _, _⟩ := he.last_next
  rw [hd] at h2
  exact c17_next h2

/-! ### C18 -/

/-- **C18, exactly when.** A completed generation reports `MaxGenerations` exactly if a limit is
set and `generation()` has reached it. -/
theorem c18_iff (h : History.Of env obj o (t ++ [s]) c) (hs : s.Checked) :
    .maxGenerations ∈ s.reasons ↔ ∃ g, o.maxGenerations = some g ∧ g ≤ c.generation := by
  obtain ⟨c1, ps, inds, el, h1, hsam, hp, hg, hev, _, _, _, _, _, hch, _⟩ := checked_next h hs
  rw [(check_mem hch).2.1]
  have hm : (checkInput c el inds).parameters.termination.maxGenerations = o.maxGenerations := by
    simp only [checkInput, hp]; rfl
  unfold TerminationCheck.maxGenerations
  rw [hm]
  cases o.maxGenerations with
  | none => simp
  | some g =>
    have : (∃ g', some g = some g' ∧ g' ≤ c.generation) ↔ g ≤ c.generation := by simp
    rw [this]
    exact decide_eq_true_iff

/-- **C18, never earlier.** -/
theorem c18_not_early (h : History.Of env obj o (t ++ [s]) c)
    (hr : .maxGenerations ∈ s.reasons) : ∃ g, o.maxGenerations = some g ∧ g ≤ c.generation :=
  (c18_iff h (checked_of_reason h hr (by decide) (by decide))).mp hr

/-- A state reached through calls that returned `None`, the last of which was a `next` call, is
below the limits. -/
theorem unfinished_below (h : History.Of env obj o t c) (he : Exec env c u c1)
    (hu : Unfinished kind u) (hne : u ≠ []) :
    (∀ g, o.maxGenerations = some g → c1.generation < g) ∧
    (∀ m, o.maxFunctionEvals = some m → c1.functionEvals < m) := by
  rcases List.eq_nil_or_concat u with rfl | ⟨u', s, rfl⟩
  · exact absurd rfl hne
  rw [List.concat_eq_append] at he hu
  have hs := (hu s (by simp)).1
  have hof := h.trans he
  rw [← List.append_assoc] at hof
  obtain ⟨c2, ps, inds, el, h1, hsam, hp, hg, hev, _, _, _, _, _, hch, hnil⟩ :=
    checked_next hof (checked_of_none hs)
  have hr := hnil.mp hs
  rw [hr] at hch
  constructor
  · intro g hg
    have := mt (check_mem hch).2.1.mpr (by simp)
    have hm : (checkInput c1 el inds).parameters.termination.maxGenerations = o.maxGenerations := by
      simp only [checkInput, hp]; rfl
    unfold TerminationCheck.maxGenerations at this
    rw [hm, hg] at this
    exact Nat.lt_of_not_le fun hle => this (decide_eq_true hle)
  · intro m hmm
    have := mt (check_mem hch).1.mpr (by simp)
    have hm : (checkInput c1 el inds).parameters.termination.maxFunctionEvals =
        o.maxFunctionEvals := by
      simp only [checkInput, hp]; rfl
    unfold TerminationCheck.maxFunctionEvals at this
    rw [hm, hmm] at this
    exact Nat.lt_of_not_le fun hle => this (decide_eq_true hle)

/-- One more call increases the counters by at most one generation. -/
theorem one_more (h : History.Of env obj o (t ++ [s]) c) (h1 : History.Of env obj o t c1) :
    (c.generation = c1.generation + 1 ∧ s.Checked ∨ c.generation = c1.generation) ∧
    (c.functionEvals = c1.functionEvals + o.populationSize ∨
      c.functionEvals = c1.functionEvals) := by
  obtain ⟨a1, a2, _⟩ := c06_generations h
  obtain ⟨b1, b2, _⟩ := c06_generations h1
  rw [List.filter_append, List.length_append] at a1
  rw [List.filter_append, List.filter_append, List.length_append, List.length_append] at a2
  by_cases hf : s.Failed
  · have hp : ¬ s.ReportsPosDef := by
      rcases reasons_cases h with hc | hc | hc
      · exact hc.2
      · rintro ⟨d, hd, hm⟩
        unfold NextCall.reasons at hc
        rw [hd] at hc
        simp only at hc
        rw [hc] at hm
        simp at hm
      · obtain ⟨d, hd, hm⟩ := hf
        unfold NextCall.reasons at hc
        rw [hd] at hc
        simp only at hc
        rw [hc] at hm
        simp at hm
    simp only [List.filter_cons, List.filter_nil, hf, hp, not_true_eq_false, decide_false, decide_true, if_true, if_false, Bool.false_eq_true, List.length_nil, List.length_cons] at a1 a2
    rw [Nat.add_zero] at a1
    exact ⟨.inr (by omega), .inr (by omega)⟩
  · by_cases hp : s.ReportsPosDef
    · simp only [List.filter_cons, List.filter_nil, hf, hp, not_false_eq_true, decide_false, decide_true, if_true, if_false, Bool.false_eq_true, List.length_nil, List.length_cons] at a1 a2
      exact ⟨.inr (by omega), .inl (by rw [a1, b1, Nat.zero_add, Nat.mul_add, Nat.mul_one])⟩
    · simp only [List.filter_cons, List.filter_nil, hf, hp, not_false_eq_true, decide_false, decide_true, if_true, if_false, Bool.false_eq_true, List.length_nil, List.length_cons] at a1 a2
      exact ⟨.inl ⟨by omega, hf, hp⟩, .inl (by rw [a1, b1, Nat.zero_add, Nat.mul_add, Nat.mul_one])⟩

/-- **C18, the bound.** With `max_generations = Some(g)`, a run started in any reachable state
makes at most `max(1, g - generation())` `next` calls and ends at a generation of at most
`max(g, generation() + 1)`; if it was started below `g` and ended at `g` or later it reports
`MaxGenerations`. For a fresh `CMAES` (`t = []`) this bounds the run by `max(1, g)` generations. -/
theorem c18_run {g : Nat} (h : History.Of env obj o t c) (hg : o.maxGenerations = some g)
    (hrun : c.run env kind = .ok (c', d)) :
    (∃ u, Exec env c u c' ∧ u.length ≤ max 1 (g - c.generation)) ∧
      c'.generation ≤ max (c.generation + 1) g ∧
      (c.generation < g → g ≤ c'.generation → .maxGenerations ∈ d.reasons) := by
  obtain ⟨u, s, he, hk, hd, hu⟩ := run_ok hrun
  obtain ⟨c1, h1, h2⟩ := he.split
  obtain ⟨hcg, _⟩ := unfinished_counters h h1 hu
  have hof : History.Of env obj o ((t ++ u) ++ [s]) c' := by
    rw [List.append_assoc]; exact h.trans he
  obtain ⟨hone, _⟩ := one_more hof (h.trans h1)
  have hb : u ≠ [] → c1.generation < g := fun hne => (unfinished_below h h1 hu hne).1 g hg
  have hlen : u ≠ [] → c.generation + u.length < g := fun hne => by have := hb hne; omega
  refine ⟨⟨_, he, ?_⟩, ?_, ?_⟩
  · rw [List.length_append]
    by_cases hne : u = []
    · subst hne; simp
    · have := hlen hne
      simp only [List.length_cons, List.length_nil]
      omega
  · by_cases hne : u = []
    · subst hne
      simp only [List.length_nil, Nat.add_zero] at hcg
      omega
    · have := hb hne
      omega
  · intro hlt hge
    have hlt1 : c1.generation < g := by
      by_cases hne : u = []
      · subst hne
        simp only [List.length_nil, Nat.add_zero] at hcg
        omega
      · exact hb hne
    rcases hone with ⟨_, hch⟩ | hone
    · have := (c18_iff hof hch).mpr ⟨g, hg, hge⟩
      unfold NextCall.reasons at this
      rw [hd] at this
      exact this
    · omega

/-- **C18, the run ends.** With `max_generations = Some(g)` the loop of `run` cannot go on for ever:
`max(1, g - generation())` passes are enough, so it can only fail to end because a single `next`
call does not end (endless resampling, see C08). -/
theorem c18_ends {g : Nat} (h : History.Of env obj o t c) (hg : o.maxGenerations = some g)
    (hf : max 1 (g - c.generation) ≤ env.runFuel) (hrun : c.run env kind = .diverge) :
    ∃ u c1, Exec env c u c1 ∧ c1.next env kind = .diverge := by
  obtain ⟨u, c1, h1, hu, h2 | h2⟩ := run_diverge hrun
  · exact ⟨u, c1, h1, h2⟩
  · exfalso
    have hne : u ≠ [] := by rintro rfl; simp at h2; omega
    have := (unfinished_below h h1 hu hne).1 g hg
    obtain ⟨hcg, _⟩ := unfinished_counters h h1 hu
    omega

/-- Valid options have a population of at least two. -/
theorem valid_population (h : CMAES.validate o = none) : 2 ≤ o.populationSize := by
  unfold CMAES.validate at h
  by_contra hlt
  split at h
  · simp at h
  · rw [if_pos (by omega)] at h
    simp at h

/-! ### C19 -/

/-- **C19, exactly when.** A completed generation reports `MaxFunctionEvals` exactly if a limit is
set and `function_evals()` has reached it. -/
theorem c19_iff (h : History.Of env obj o (t ++ [s]) c) (hs : s.Checked) :
    .maxFunctionEvals ∈ s.reasons ↔ ∃ m, o.maxFunctionEvals = some m ∧ m ≤ c.functionEvals := by
  obtain ⟨c1, ps, inds, el, h1, hsam, hp, hg, hev, _, _, _, _, _, hch, _⟩ := checked_next h hs
  rw [(check_mem hch).1]
  have hm : (checkInput c el inds).parameters.termination.maxFunctionEvals =
      o.maxFunctionEvals := by
    simp only [checkInput, hp]; rfl
  unfold TerminationCheck.maxFunctionEvals
  rw [hm]
  cases o.maxFunctionEvals with
  | none => simp
  | some g =>
    have : (∃ g', some g = some g' ∧ g' ≤ c.functionEvals) ↔ g ≤ c.functionEvals := by simp
    rw [this]
    exact decide_eq_true_iff

/-- **C19, never earlier.** -/
theorem c19_not_early (h : History.Of env obj o (t ++ [s]) c)
    (hr : .maxFunctionEvals ∈ s.reasons) :
    ∃ m, o.maxFunctionEvals = some m ∧ m ≤ c.functionEvals :=
  (c19_iff h (checked_of_reason h hr (by decide) (by decide))).mp hr

/-- **C19, the bound.** With `max_function_evals = Some(m)`, a run started in any reachable state
ends with `function_evals()` below `max(m, start + 1) + population_size`; for a fresh `CMAES`
(`function_evals() = 0`) this is `max(m, 1) + population_size`. -/
theorem c19_run {m : Nat} (h : History.Of env obj o t c) (hm : o.maxFunctionEvals = some m)
    (hrun : c.run env kind = .ok (c', d)) :
    c'.functionEvals < max m (c.functionEvals + 1) + o.populationSize := by
  obtain ⟨u, s, he, hk, hd, hu⟩ := run_ok hrun
  obtain ⟨c1, h1, h2⟩ := he.split
  obtain ⟨_, hce⟩ := unfinished_counters h h1 hu
  have hof : History.Of env obj o ((t ++ u) ++ [s]) c' := by
    rw [List.append_assoc]; exact h.trans he
  obtain ⟨_, hone⟩ := one_more hof (h.trans h1)
  by_cases hne : u = []
  · subst hne
    simp only [List.length_nil, Nat.mul_zero, Nat.add_zero] at hce
    omega
  · have := (unfinished_below h h1 hu hne).2 m hm
    omega

/-- **C19, the run ends.** With `max_function_evals = Some(m)` the loop of `run` cannot go on for
ever: `max(1, m - function_evals())` passes are enough. -/
theorem c19_ends {m : Nat} (h : History.Of env obj o t c) (hm : o.maxFunctionEvals = some m)
    (hf : max 1 (m - c.functionEvals) ≤ env.runFuel) (hrun : c.run env kind = .diverge) :
    ∃ u c1, Exec env c u c1 ∧ c1.next env kind = .diverge := by
  obtain ⟨u, c1, h1, hu, h2 | h2⟩ := run_diverge hrun
  · exact ⟨u, c1, h1, h2⟩
  · exfalso
    have hne : u ≠ [] := by rintro rfl; simp at h2; omega
    have hb := (unfinished_below h h1 hu hne).2 m hm
    obtain ⟨_, hce⟩ := unfinished_counters h h1 hu
    have hpop : 1 ≤ o.populationSize := by
      obtain ⟨gs, i, _⟩ := fresh_inv h
      have := valid_population i.valid
      omega
    have : u.length ≤ o.populationSize * u.length := Nat.le_mul_of_pos_left _ hpop
    omega

/-! ### C20 -/

/-- **C20, exactly when.** A completed generation reports `FunTarget` exactly if a target is set and
one of the points evaluated in this generation has a value strictly better than it. -/
theorem c20_iff (h : History.Of env obj o (t ++ [s]) c) (hs : s.Checked) :
    .funTarget ∈ s.reasons ↔ ∃ v, o.funTarget = some v ∧ ∃ e ∈ s.calls, Better o.mode e.2 v := by
  obtain ⟨c1, ps, inds, el, h1, hsam, hp, hg, hev, _, _, _, _, _, hch, _⟩ := checked_next h hs
  rw [(check_mem hch).2.2.2.1]
  have hm : (checkInput c el inds).parameters.termination.funTarget = o.funTarget := by
    simp only [checkInput, hp]; rfl
  have hmode : (checkInput c el inds).parameters.mode = o.mode := by
    simp only [checkInput, hp]; rfl
  unfold TerminationCheck.funTarget
  rw [hm, hmode]
  cases o.funTarget with
  | none => simp
  | some v =>
    have e : (∃ v', some v = some v' ∧ ∃ e ∈ s.calls, Better o.mode e.2 v') ↔
        ∃ e ∈ s.calls, Better o.mode e.2 v := by simp
    rw [e]
    show (inds.any fun ind => o.mode.isBetter ind.value v) = true ↔ _
    rw [List.any_eq_true]
    constructor
    · rintro ⟨p, hp, hb⟩
      refine ⟨p.call, hsam.callsPerm.mem_iff.mpr (List.mem_map.mpr ⟨p, hp, rfl⟩), ?_⟩
      exact better_iff.mpr (Mode.isBetter_iff.mp hb)
    · rintro ⟨e, he, hb⟩
      obtain ⟨p, hp, rfl⟩ := List.mem_map.mp (hsam.callsPerm.mem_iff.mp he)
      exact ⟨p, hp, Mode.isBetter_iff.mpr (better_iff.mp hb)⟩

/-- **C20, success.** If a run ends with `FunTarget` then the overall best individual it reports is
strictly better than the target. -/
theorem c20_run_reached {v : F} (h : History.Of env obj o t c) (hv : o.funTarget = some v)
    (hrun : c.run env kind = .ok (c', d)) (hr : .funTarget ∈ d.reasons) :
    ∃ x, d.overallBest = some x ∧ Better o.mode x.value v := by
  obtain ⟨u, s, he, hk, hd, hu⟩ := run_ok hrun
  have hof : History.Of env obj o ((t ++ u) ++ [s]) c' := by
    rw [List.append_assoc]; exact h.trans he
  have hr' : .funTarget ∈ s.reasons := by unfold NextCall.reasons; rw [hd]; exact hr
  have hch := checked_of_reason hof hr' (by decide) (by decide)
  obtain ⟨v', hv', e, hem, hb⟩ := (c20_iff hof hch).mp hr'
  rw [hv] at hv'
  injection hv' with hv'
  subst hv'
  obtain ⟨c2, h2, h3, _, hob, _⟩ := c01_termination_data (t2 := []) hof hd
  have hmem : e ∈ completedCalls ((t ++ u) ++ [s]) := by
    unfold completedCalls
    rw [List.mem_flatMap]
    exact ⟨s, by simp [hch.1], hem⟩
  cases hx : c2.overallBestIndividual with
  | none =>
    exfalso
    have := (c03_presence h2).2.mpr ⟨s, by simp, hch.1⟩
    rw [hx] at this
    simp at this
  | some x =>
    rw [hx] at hob
    obtain ⟨hn, hbest, _⟩ := c01_overall_best h2 hx
    refine ⟨x, hob, ?_⟩
    have h4 := hbest e hmem
    obtain ⟨b1, b2, b3⟩ := better_iff.mp hb
    rw [better_iff] at h4 ⊢
    refine ⟨hn, b2, lt_of_le_of_lt (not_lt.mp fun hlt => h4 ⟨b1, hn, hlt⟩) b3⟩

/-- **C20, failure.** If a run ends for other reasons than `FunTarget`, `InvalidFunctionValue` and
`PosDefCov`, then no point evaluated during the run was strictly better than the target. -/
theorem c20_run_missed {v : F} {calls : List (Vec n F × F)} (h : History.Of env obj o t c)
    (hv : o.funTarget = some v) (hrun : c.run env kind = .ok (c', d))
    (hr : .funTarget ∉ d.reasons) (hi : .invalidFunctionValue ∉ d.reasons)
    (hpd : .posDefCov ∉ d.reasons)
    (hl : c'.intoObjectiveFunction.log = c.intoObjectiveFunction.log ++ calls) :
    ∀ e ∈ calls, ¬ Better o.mode e.2 v := by
  obtain ⟨u, s, he, hk, hd, hu⟩ := run_ok hrun
  have hof : History.Of env obj o ((t ++ u) ++ [s]) c' := by
    rw [List.append_assoc]; exact h.trans he
  have hcalls : calls = allCalls (u ++ [s]) := by
    have h1 := (c01_calls_are_real h).1
    have h2 := (c01_calls_are_real (h.trans he)).1
    rw [hl, h1] at h2
    unfold allCalls at h2 ⊢
    rw [List.flatMap_append, ← List.append_assoc] at h2
    exact List.append_cancel_left h2
  subst hcalls
  have key : ∀ (u1 : List (NextCall n F)) (s1 : NextCall n F) (u2 : List (NextCall n F)),
      u ++ [s] = u1 ++ s1 :: u2 → ∀ e ∈ s1.calls, ¬ Better o.mode e.2 v := by
    intro u1 s1 u2 heq e hem hb
    have he' := he
    rw [heq, show u1 ++ s1 :: u2 = (u1 ++ [s1]) ++ u2 by simp] at he'
    obtain ⟨c2, h2, h3⟩ := he'.split
    have hof2 : History.Of env obj o ((t ++ u1) ++ [s1]) c2 := by
      rw [List.append_assoc]; exact h.trans h2
    have hsr : s1.reasons = [] ∨ s1 = s := by
      have : s1 ∈ u ++ [s] := by rw [heq]; simp
      rcases List.mem_append.mp this with hm | hm
      · left; unfold NextCall.reasons; rw [(hu s1 hm).1]
      · right; simpa using hm
    have hch : s1.Checked := by
      rcases hsr with hsr | rfl
      · constructor
        · rintro ⟨d', hd', hm⟩
          unfold NextCall.reasons at hsr
          rw [hd'] at hsr
          simp only at hsr
          rw [hsr] at hm
          simp at hm
        · rintro ⟨d', hd', hm⟩
          unfold NextCall.reasons at hsr
          rw [hd'] at hsr
          simp only at hsr
          rw [hsr] at hm
          simp at hm
      · constructor
        · rintro ⟨d', hd', hm⟩
          rw [hd] at hd'
          injection hd' with hd'
          subst hd'
          exact hi hm
        · rintro ⟨d', hd', hm⟩
          rw [hd] at hd'
          injection hd' with hd'
          subst hd'
          exact hpd hm
    have hft := (c20_iff hof2 hch).mpr ⟨v, hv, e, hem, hb⟩
    rcases hsr with hsr | rfl
    · rw [hsr] at hft; simp at hft
    · unfold NextCall.reasons at hft
      rw [hd] at hft
      exact hr hft
  intro e hem
  unfold allCalls at hem
  rw [List.mem_flatMap] at hem
  obtain ⟨s1, hs1, he1⟩ := hem
  obtain ⟨u1, u2, heq⟩ := List.append_of_mem hs1
  exact key u1 s1 u2 heq e he1

/-! ### C21 -/

/-- The clock readings of an execution: one when it was built, then (if `max_time` is set) one per
completed generation. -/
theorem exec_clock {w : World n F} {c0 : CMAES n F R} (h0 : CMAES.new env w obj o = .ok c0)
    (he : Exec env c0 t c) :
    c.parameters.termination.maxTime = o.maxTime ∧
    c.timeCreated = env.clock w.clockReads ∧
    c.world.clockReads = w.clockReads + 1 +
      (if o.maxTime.isSome then (t.filter fun s => s.Checked).length else 0) := by
  induction he with
  | refl =>
    obtain ⟨hv, rfl⟩ := new_eq_ok h0
    obtain ⟨_, e2, _, _, _, e3, e4, _⟩ := create_search env w obj o
    refine ⟨by rw [e2]; rfl, e3, by rw [e4]; simp⟩
  | @next c1 c2 t kind calls r h1 h2 h3 ih =>
    obtain ⟨i0, i1, i2⟩ := ih
    obtain ⟨res, hres, hp, hst, _, htc, hcase⟩ := next_core h2
    refine ⟨by rw [hp, i0], by rw [htc, i1], ?_⟩
    rw [List.filter_append, List.length_append]
    rcases hcase with ⟨_, _, _, e1, rfl⟩ | ⟨inds, b, _, _, _, hf, ht⟩
    · have hn : ¬ NextCall.Checked { kind, calls, result := some (c2.terminationData
          [.invalidFunctionValue]) } := fun hc => hc.1 ⟨_, rfl, by simp [CMAES.terminationData]⟩
      rw [e1, i2, List.filter_cons_of_neg (by simpa using hn)]
      simp
    · cases b with
      | false =>
        obtain ⟨rfl, e1⟩ := hf rfl
        have hn : ¬ NextCall.Checked { kind, calls, result := some (c2.terminationData
          [.posDefCov]) } := fun hc => hc.2 ⟨_, rfl, by simp [CMAES.terminationData]⟩
        rw [e1, i2, List.filter_cons_of_neg (by simpa using hn)]
        simp
      | true =>
        obtain ⟨e1, reasons, hch, hr⟩ := ht rfl
        have hc : NextCall.Checked { kind, calls, result := r } := checked_of_check hch hr
        rw [e1, i2, i0, List.filter_cons_of_pos (by simpa using hc)]
        split <;> simp <;> omega
  | quiet h1 h2 h3 ih =>
    have hs := (Exec.quiet (.refl _) h2 h3).nil_sameRun
    rw [hs.parameters, hs.timeCreated, hs.clockReads]
    exact ih

/-- **C21, exactly when.** A completed generation reports `MaxTime` exactly if `max_time` is set and
the clock, read once for this check, is at least `max_time` later than it was at construction. The
reading is the next one after those of construction and of the previous completed generations. -/
theorem c21_iff {w : World n F} {c0 : CMAES n F R} (h0 : CMAES.new env w obj o = .ok c0)
    (he : Exec env c0 (t ++ [s]) c) (hs : s.Checked) :
    .maxTime ∈ s.reasons ↔ ∃ m, o.maxTime = some m ∧
      m ≤ env.clock (w.clockReads + 1 + (t.filter fun s => s.Checked).length) -
        env.clock w.clockReads := by
  obtain ⟨c1, c2, h1, h2, h3, h4⟩ := he.last_next
  obtain ⟨i0, i1, i2⟩ := exec_clock h0 h1
  obtain ⟨res, hres, hp, hst, _, htc, hcase⟩ := next_core h2
  rcases hcase with ⟨_, _, _, e1, hr⟩ | ⟨inds, b, _, _, _, hf, ht⟩
  · exact absurd ⟨_, hr, by simp [CMAES.terminationData]⟩ hs.1
  cases b with
  | false => exact absurd ⟨_, (hf rfl).1, by simp [CMAES.terminationData]⟩ hs.2
  | true =>
    obtain ⟨e1, reasons, hch, hr⟩ := ht rfl
    have hreasons : s.reasons = reasons := by
      unfold NextCall.reasons
      rw [hr]
      cases reasons <;> rfl
    rw [hreasons, (check_mem hch).2.2.1]
    unfold TerminationCheck.maxTime
    simp only [checkInput, hp, i0, i1, i2]
    cases o.maxTime with
    | none => simp
    | some m => simp

/-- **C21, never earlier.** `MaxTime` is reported only if `max_time` is set. -/
theorem c21_only_if_set (h : History.Of env obj o (t ++ [s]) c) (hr : .maxTime ∈ s.reasons) :
    ∃ m, o.maxTime = some m := by
  have hs := checked_of_reason h hr (by decide) (by decide)
  obtain ⟨w, c0, h0, he⟩ := h
  obtain ⟨m, hm, _⟩ := (c21_iff h0 he hs).mp hr
  exact ⟨m, hm⟩

/-- **C21, the run ends.** If `max_time` is set and from the `K`-th reading on the clock is past the
limit, `K + 1` passes of the loop of `run` are enough: it can only fail to end because a single
`next` call does not end. -/
theorem c21_ends {w : World n F} {c0 : CMAES n F R} {m K : Nat}
    (h0 : CMAES.new env w obj o = .ok c0) (he : Exec env c0 t c) (hm : o.maxTime = some m)
    (hclock : ∀ k, K ≤ k → m ≤ env.clock k - env.clock w.clockReads)
    (hf : K + 1 ≤ env.runFuel) (hrun : c.run env kind = .diverge) :
    ∃ u c1, Exec env c u c1 ∧ c1.next env kind = .diverge := by
  obtain ⟨u, c1, h1, hu, h2 | h2⟩ := run_diverge hrun
  · exact ⟨u, c1, h1, h2⟩
  · exfalso
    rcases List.eq_nil_or_concat u with rfl | ⟨u', s, rfl⟩
    · simp at h2; omega
    rw [List.concat_eq_append] at h1 hu h2
    have hs := (hu s (by simp)).1
    have he' := he.trans h1
    rw [← List.append_assoc] at he'
    have hnot : .maxTime ∉ s.reasons := by unfold NextCall.reasons; rw [hs]; simp
    refine hnot ((c21_iff h0 he' (checked_of_none hs)).mpr ⟨m, hm, hclock _ ?_⟩)
    have hall : (u'.filter fun s => s.Checked) = u' :=
      List.filter_eq_self.mpr fun s hs => by
        simpa using checked_of_none (hu s (by simp [hs])).1
    rw [List.filter_append, List.length_append, hall]
    simp only [List.length_append, List.length_cons, List.length_nil] at h2
    omega

/-! ### Concrete runs -/

/-- A fresh `CMAES` and what its `run` returns. -/
theorem exists_run (kind : EvalKind) (p : CMAES n F R → TerminationData n F → Bool)
    (hv : CMAES.validate o = none)
    (h : ((CMAES.create env World.init obj o).run env kind).check (fun x => p x.1 x.2) = true) :
    ∃ c c' d, History.Of env obj o [] c ∧ c.run env kind = .ok (c', d) ∧ p c' d = true := by
  obtain ⟨⟨c', d⟩, h1, h2⟩ := Outcome.of_check h
  exact ⟨_, c', d, ⟨World.init, _, by simp only [CMAES.new, hv], .refl _⟩, h1, h2⟩

section
open Witness

/-- C17, C18: with `max_generations = Some(3)` the run completes three generations and reports
exactly this. -/
example : ∃ c c' d, History.Of (wenv 2) sphere { opts with maxGenerations := some 3 } [] c ∧
    c.run (wenv 2) .seq = .ok (c', d) ∧
    decide (d.reasons = [.maxGenerations] ∧ c'.generation = 3 ∧ c'.functionEvals = 12) = true :=
  exists_run .seq _ (by decide +kernel) (by decide +kernel)

/-- C19: with `max_function_evals = Some(5)` and a population of four the run makes eight calls. -/
example : ∃ c c' d, History.Of (wenv 2) sphere { opts with maxFunctionEvals := some 5 } [] c ∧
    c.run (wenv 2) .par = .ok (c', d) ∧
    decide (d.reasons = [.maxFunctionEvals] ∧ c'.generation = 2 ∧ c'.functionEvals = 8) = true :=
  exists_run .par _ (by decide +kernel) (by decide +kernel)

/-- C20: a target of 3 is beaten in the third generation. -/
example : ∃ c c' d, History.Of (wenv 2) sphere { opts with funTarget := some 3 } [] c ∧
    c.run (wenv 2) .seq = .ok (c', d) ∧
    decide (d.reasons = [.funTarget] ∧ c'.generation = 3) = true :=
  exists_run .seq _ (by decide +kernel) (by decide +kernel)

/-- C20: "reached" is not enough. The fourth point evaluated has the value 4, equal to the target,
but the run, limited to one generation, does not report `FunTarget`. -/
theorem c20_equal_does_not_count :
    ∃ c c' d, History.Of (wenv 2) sphere
      { opts with funTarget := some 4, maxGenerations := some 1 } [] c ∧
    c.run (wenv 2) .seq = .ok (c', d) ∧
    decide (d.reasons = [.maxGenerations] ∧
      c'.intoObjectiveFunction.log.any (fun e => Flt.feq e.2 4) = true) = true :=
  exists_run .seq _ (by decide +kernel) (by decide +kernel)

/-- An objective whose values decrease from call to call. -/
def decreasing : Obj 2 F64 := { f := fun log _ => Flt.ofNat (100 - log.length), log := [] }

/-- C20: the exception for `PosDefCov` is needed. The second generation contains a point better
than the target, but ends the run with `PosDefCov` alone. -/
theorem c20_posDefCov_hides_target :
    ∃ c c' d, History.Of noEigen decreasing
      { opts with funTarget := some (Flt.ofNat 96) } [] c ∧
    c.run noEigen .seq = .ok (c', d) ∧
    decide (d.reasons = [.posDefCov] ∧ c'.intoObjectiveFunction.log.any
      (fun e => Flt.lt e.2 (Flt.ofNat 96)) = true) = true :=
  exists_run .seq _ (by decide +kernel) (by decide +kernel)

/-- C21: the clock of this environment advances by one at every reading; with `max_time = 2` the
run ends after two generations. -/
example : ∃ c c' d, History.Of (wenv 2) sphere { opts with maxTime := some 2 } [] c ∧
    c.run (wenv 2) .seq = .ok (c', d) ∧
    decide (d.reasons = [.maxTime] ∧ c'.generation = 2) = true :=
  exists_run .seq _ (by decide +kernel) (by decide +kernel)

/-- C21: the hypotheses of `c21_ends` about the clock. -/
example : ∀ k, 2 ≤ k → 2 ≤ (wenv 2).clock k - (wenv 2).clock (World.init : World 2 F64).clockReads :=
  fun k hk => hk

end

end Cmaes
