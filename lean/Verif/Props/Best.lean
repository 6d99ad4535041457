import Verif.Witness

/-!
# C01 - C04: best individuals
-/

set_option linter.unusedSectionVars false

namespace Cmaes
variable {n : Nat} {F R : Type} [Flt F] [FltLaws F]
open FltLaws

theorem better_iff {mode : Mode} {a b : F} : Better mode a b ↔
    Flt.isNaN a = false ∧ Flt.isNaN b = false ∧ mode.key a < mode.key b := by
  rw [← Mode.isBetter_iff]
  cases mode <;> simp [Better, Mode.isBetter]

section
variable {env : Env n F R} {obj : Obj n F} {o : Options n F} {t : List (NextCall n F)}
  {c : CMAES n F R}

/-- The invariant for a fresh start. -/
theorem history_inv (h : History.Of env obj o t c) : ∃ w gs, CMAES.validate o = none ∧
    ExecInv (CMAES.create env w obj o) t c gs := by
  obtain ⟨w, c0, h0, he⟩ := h
  obtain ⟨hv, rfl⟩ := new_eq_ok h0
  obtain ⟨gs, i⟩ := exec_inv he
  exact ⟨w, gs, hv, i⟩

/-- The generations of an execution from a fresh start. -/
structure FreshInv (env : Env n F R) (obj : Obj n F) (o : Options n F) (t : List (NextCall n F))
    (c : CMAES n F R) (gs : List (Gen n F)) : Prop where
  valid : CMAES.validate o = none
  parameters : c.parameters = Parameters.fromOptions o (o.seed.getD env.randomSeed)
  constraints : c.sampler.constraints = o.constraints
  maxResamples : c.sampler.maxResamples = o.maxResamples
  populationSize : c.sampler.populationSize = o.populationSize
  printGapEvals : c.printGapEvals = o.printGapEvals
  log : c.sampler.obj.log = obj.log ++ allCalls t
  f : c.sampler.obj.f = obj.f
  faithful : Faithful obj.f obj.log (allCalls t)
  calls : gs.map Gen.call = t.filter fun s => ¬ s.Failed
  sampled : ∀ g ∈ gs, Sampled g.call.kind g.mean g.sigma o.mode o.populationSize g.call.calls
    g.points g.sorted
  failed : ∀ s ∈ t, s.Failed → (∃ e ∈ s.calls, Flt.isNaN e.2 = true) ∧
    ∃ d, s.result = some d ∧ d.reasons = [.invalidFunctionValue]
  evals : c.sampler.functionEvals = o.populationSize * gs.length
  history : (History.new : History n F).after o.mode (gs.map Gen.sorted) = .ok c.history


theorem fresh_inv (h : History.Of env obj o t c) : ∃ gs, FreshInv env obj o t c gs ∧
    c.state.generation + (gs.filter fun g => g.call.ReportsPosDef).length = gs.length := by
  obtain ⟨w, gs, hv, i⟩ := history_inv h
  obtain ⟨e1, e2, e3, e4, e5, e6, e7, e8, e9⟩ := create_search env w obj o
  have hmode : (CMAES.create env w obj o).parameters.mode = o.mode := by rw [e2]; rfl
  refine ⟨gs, ⟨hv, i.config.parameters.trans e2, i.config.constraints.trans (by rw [e1]; rfl),
    i.config.maxResamples.trans (by rw [e1]; rfl),
    i.config.populationSize.trans (by rw [e1]; rfl), i.config.printGapEvals.trans e5,
    i.log.trans (by rw [e1]; rfl), i.config.f.trans (by rw [e1]; rfl),
    by have := i.faithful; rw [e1] at this; exact this, ?_, ?_, i.failed, ?_, ?_⟩, ?_⟩
  · rw [i.calls]
  · intro g hg
    have := i.sampled g hg
    rw [hmode, e1] at this
    exact this
  · rw [i.evals, e1]; simp [Sampler.new]
  · have := i.history
    rwa [hmode, e4] at this
  · have := i.generation
    rw [e3] at this
    simpa [State.new] using this

/-- The completed calls are the calls of the generations. -/
theorem FreshInv.completedCalls {gs : List (Gen n F)} (i : FreshInv env obj o t c gs) :
    completedCalls t = gs.flatMap fun g => g.call.calls := by
  unfold Cmaes.completedCalls
  rw [← i.calls, List.flatMap_map]

theorem FreshInv.best {gs : List (Gen n F)} (i : FreshInv env obj o t c gs) :
    (gs.map Gen.sorted = [] ∧ c.history.currentBest = none ∧ c.history.overallBest = none) ∨
    (∃ gs' b rest, gs.map Gen.sorted = gs' ++ [b :: rest] ∧
      c.history.currentBest = some ⟨b.point, b.value⟩) ∧
    ∃ g1 b rest g2, gs.map Gen.sorted = g1 ++ (b :: rest) :: g2 ∧
      c.history.overallBest = some ⟨b.point, b.value⟩ ∧
      (∀ g ∈ g1, ∀ p ∈ g, o.mode.key b.value < o.mode.key p.value) ∧
      (∀ g ∈ g2, ∀ p ∈ g, o.mode.key b.value ≤ o.mode.key p.value) := by
  apply after_best _ _ i.history
  · intro g hg
    obtain ⟨g', hg', rfl⟩ := List.mem_map.mp hg
    exact (i.sampled g' hg').sorted
  · intro g hg p hp
    obtain ⟨g', hg', rfl⟩ := List.mem_map.mp hg
    exact (i.sampled g' hg').inds_noNaN p hp

theorem FreshInv.call_noNaN {gs : List (Gen n F)} (i : FreshInv env obj o t c gs)
    {e : Vec n F × F} (he : e ∈ Cmaes.completedCalls t) : Flt.isNaN e.2 = false := by
  rw [i.completedCalls] at he
  obtain ⟨g, hg, he⟩ := List.mem_flatMap.mp he
  exact (i.sampled g hg).calls_noNaN e he

theorem sorted_head_le {mode : Mode} {b : EvaluatedPoint n F} {rest : List (EvaluatedPoint n F)}
    (hs : (b :: rest).Pairwise (fun a b => mode.key a.value ≤ mode.key b.value)) :
    ∀ p ∈ b :: rest, mode.key b.value ≤ mode.key p.value := by
  intro p hp
  rcases List.mem_cons.mp hp with rfl | hp
  · exact le_refl _
  · exact (List.pairwise_cons.mp hs).1 p hp

/-- **C01.** If there is an overall best individual, it is a call of a completed `next` (`s`),
it is not NaN, no call of any completed `next` is strictly better, all calls of earlier completed
`next`s are strictly worse, and if `s` was sequential all its earlier calls are strictly worse. -/
theorem c01_overall_best (h : History.Of env obj o t c) {x : Individual n F}
    (hx : c.overallBestIndividual = some x) :
    Flt.isNaN x.value = false ∧
    (∀ e ∈ completedCalls t, ¬ Better o.mode e.2 x.value) ∧
    ∃ t1 s t2, t = t1 ++ s :: t2 ∧ ¬ s.Failed ∧ (x.point, x.value) ∈ s.calls ∧
      (∀ e ∈ completedCalls t1, Better o.mode x.value e.2) ∧
      (s.kind = .seq → ∃ pre post, s.calls = pre ++ (x.point, x.value) :: post ∧
        ∀ e ∈ pre, Better o.mode x.value e.2) := by
  obtain ⟨gs, i, _⟩ := fresh_inv h
  have hx' : c.history.overallBest = some x := hx
  rcases i.best with ⟨_, _, h0⟩ | ⟨_, g1, b, rest, g2, hg, ho, hlt, hle⟩
  · rw [h0] at hx'; simp at hx'
  rw [ho] at hx'
  have := Option.some.inj hx'
  subst this
  obtain ⟨gs1, gr, rfl, hgs1, hgr⟩ := List.map_eq_append_iff.mp hg
  obtain ⟨g, gs2, rfl, hgb, hgs2⟩ := List.map_eq_cons_iff.mp hgr
  have hsg := i.sampled g (by simp)
  have hbmem : b ∈ g.sorted := by rw [hgb]; simp
  have hbn : Flt.isNaN b.value = false := hsg.inds_noNaN b hbmem
  have hsort := hsg.sorted
  rw [hgb] at hsort
  have hhead := sorted_head_le hsort
  -- calls of a generation in terms of its points
  have hcall : ∀ g' ∈ gs1 ++ g :: gs2, ∀ e ∈ g'.call.calls,
      ∃ p ∈ g'.sorted, e = p.call := by
    intro g' hg' e he
    obtain ⟨p, hp, rfl⟩ := List.mem_map.mp ((i.sampled g' hg').callsPerm.mem_iff.mp he)
    exact ⟨p, hp, rfl⟩
  have hall : ∀ e ∈ completedCalls t, o.mode.key b.value ≤ o.mode.key e.2 := by
    intro e he
    rw [i.completedCalls] at he
    obtain ⟨g', hg', he⟩ := List.mem_flatMap.mp he
    obtain ⟨p, hp, rfl⟩ := hcall g' hg' e he
    rcases List.mem_append.mp hg' with hg' | hg'
    · exact (hlt g'.sorted (by rw [← hgs1]; exact List.mem_map_of_mem hg') p hp).le
    · rcases List.mem_cons.mp hg' with rfl | hg'
      · exact hhead p (by rw [← hgb]; exact hp)
      · exact hle g'.sorted (by rw [← hgs2]; exact List.mem_map_of_mem hg') p hp
  refine ⟨hbn, ?_, ?_⟩
  · intro e he hbet
    exact absurd (better_iff.mp hbet).2.2 (not_lt.mpr (hall e he))
  · have hc := i.calls
    rw [List.map_append, List.map_cons] at hc
    obtain ⟨t1, tr, rfl, ht1, htr⟩ := List.filter_eq_append_iff.mp hc.symm
    obtain ⟨tn, t2, rfl, htn, hs, ht2⟩ := List.filter_eq_cons_iff.mp htr
    simp only [decide_not, Bool.not_eq_true', decide_eq_false_iff_not] at hs
    refine ⟨t1 ++ tn, g.call, t2, by simp, hs, ?_, ?_, ?_⟩
    · rw [hsg.callsPerm.mem_iff]
      exact List.mem_map.mpr ⟨b, hbmem, rfl⟩
    · intro e he
      have hcomp : completedCalls (t1 ++ tn) = gs1.flatMap fun g => g.call.calls := by
        unfold completedCalls
        rw [List.filter_append, ht1]
        have : tn.filter (fun s => ¬ s.Failed) = [] := by
          rw [List.filter_eq_nil_iff]
          exact htn
        rw [this, List.append_nil, List.flatMap_map]
      rw [hcomp] at he
      obtain ⟨g', hg', he⟩ := List.mem_flatMap.mp he
      obtain ⟨p, hp, rfl⟩ := hcall g' (by simp [hg']) e he
      exact better_iff.mpr ⟨hbn, (i.sampled g' (by simp [hg'])).inds_noNaN p hp,
        hlt g'.sorted (by rw [← hgs1]; exact List.mem_map_of_mem hg') p hp⟩
    · intro hk
      have hfil := sortPoints_filter (mode := o.mode) hsg.noNaN b.value
      have hbb : Flt.feq b.value b.value = true := feq_iff.mpr ⟨hbn, hbn, rfl⟩
      rw [← hsg.sort, hgb, List.filter_cons, if_pos hbb] at hfil
      obtain ⟨l1, l2, hl, hl1, _, _⟩ := List.filter_eq_cons_iff.mp hfil.symm
      refine ⟨l1.map EvaluatedPoint.call, l2.map EvaluatedPoint.call, ?_, ?_⟩
      · rw [hsg.seq hk, hl]; simp [EvaluatedPoint.call]
      · intro e he
        obtain ⟨p, hp, rfl⟩ := List.mem_map.mp he
        have hpm : p ∈ g.points := by rw [hl]; simp [hp]
        have hpn := hsg.noNaN p hpm
        refine better_iff.mpr ⟨hbn, hpn, lt_of_le_of_ne
          (hhead p (by rw [← hgb]; exact hsg.mem_inds.mpr hpm)) ?_⟩
        intro heq
        apply hl1 p hp
        rw [feq_iff]
        exact ⟨hpn, hbn, (Mode.key_val heq).symm⟩

/-- **C01, calls are real.** The objective was called exactly on the points recorded in the trace,
in that order, and the recorded values are what it returned. -/
theorem c01_calls_are_real (h : History.Of env obj o t c) :
    c.intoObjectiveFunction.log = obj.log ++ allCalls t ∧
    Faithful obj.f obj.log (allCalls t) := by
  obtain ⟨gs, i, _⟩ := fresh_inv h
  exact ⟨i.log, i.faithful⟩

/-- **C02.** After a `next` that did not report `InvalidFunctionValue` the current best individual
is one of the points it evaluated (there are `population_size` of them) and none of these is
strictly better. -/
theorem c02_current_best {s : NextCall n F} (h : History.Of env obj o (t ++ [s]) c)
    (hs : ¬ s.Failed) :
    ∃ x, c.currentBestIndividual = some x ∧ (x.point, x.value) ∈ s.calls ∧
      s.calls.length = o.populationSize ∧ Flt.isNaN x.value = false ∧
      ∀ e ∈ s.calls, ¬ Better o.mode e.2 x.value := by
  obtain ⟨gs, i, _⟩ := fresh_inv h
  have hc := i.calls
  rw [List.filter_append, List.filter_cons_of_pos (by simpa using hs), List.filter_nil] at hc
  obtain ⟨gs1, gr, rfl, _, hgr⟩ := List.map_eq_append_iff.mp hc
  obtain ⟨g, gs2, rfl, rfl, hgs2⟩ := List.map_eq_cons_iff.mp hgr
  have : gs2 = [] := by simpa using hgs2
  subst this
  rcases i.best with ⟨h0, _, _⟩ | ⟨⟨gs', b, rest, hg, ho⟩, _⟩
  · simp at h0
  rw [List.map_append, List.map_cons, List.map_nil] at hg
  have hgb := (List.append_inj' hg rfl).2
  simp only [List.cons.injEq, and_true] at hgb
  have hsg := i.sampled g (by simp)
  have hsort := hsg.sorted
  rw [hgb] at hsort
  have hhead := sorted_head_le hsort
  refine ⟨⟨b.point, b.value⟩, ho, ?_, hsg.callsLength, hsg.inds_noNaN b (by rw [hgb]; simp), ?_⟩
  · rw [hsg.callsPerm.mem_iff]
    exact List.mem_map.mpr ⟨b, by rw [hgb]; simp, rfl⟩
  · intro e he hbet
    obtain ⟨p, hp, rfl⟩ := List.mem_map.mp (hsg.callsPerm.mem_iff.mp he)
    exact absurd (better_iff.mp hbet).2.2 (not_lt.mpr (hhead p (by rw [← hgb]; exact hp)))

/-- **C03.** Both best individuals are absent until the first `next` that did not report
`InvalidFunctionValue`, and present from then on. -/
theorem c03_presence (h : History.Of env obj o t c) :
    (c.currentBestIndividual.isSome ↔ ∃ s ∈ t, ¬ s.Failed) ∧
    (c.overallBestIndividual.isSome ↔ ∃ s ∈ t, ¬ s.Failed) := by
  obtain ⟨gs, i, _⟩ := fresh_inv h
  have hc := i.calls
  rcases i.best with ⟨h0, h1, h2⟩ | ⟨⟨gs', b, rest, hg, ho⟩, g1, b', rest', g2, hg', ho', _⟩
  · have : gs = [] := by simpa using h0
    subst this
    simp only [List.map_nil] at hc
    have hf : ¬ ∃ s ∈ t, ¬ s.Failed := by
      rintro ⟨s, hs, hns⟩
      have : s ∈ t.filter (fun s => ¬ s.Failed) := List.mem_filter.mpr ⟨hs, by simpa using hns⟩
      rw [← hc] at this
      simp at this
    simp only [CMAES.currentBestIndividual, CMAES.overallBestIndividual, h1, h2]
    simp [hf]
  · have : ∃ s ∈ t, ¬ s.Failed := by
      have : gs ≠ [] := by rintro rfl; simp at hg
      obtain ⟨g, gs1, rfl⟩ := List.exists_cons_of_ne_nil this
      have hm : g.call ∈ t.filter (fun s => ¬ s.Failed) := by rw [← hc]; simp
      exact ⟨g.call, (List.mem_filter.mp hm).1, by simpa using (List.mem_filter.mp hm).2⟩
    simp only [CMAES.currentBestIndividual, CMAES.overallBestIndividual, ho, ho']
    simp [this]

omit [FltLaws F] in
/-- An execution can be cut at any of its `next` calls. -/
theorem Exec.split {c0 : CMAES n F R} {t1 t2 : List (NextCall n F)}
    (h : Exec env c0 (t1 ++ t2) c) : ∃ c1, Exec env c0 t1 c1 ∧ Exec env c1 t2 c := by
  generalize ht : t1 ++ t2 = t at h
  induction h generalizing t2 with
  | refl =>
    simp only [List.append_eq_nil_iff] at ht
    obtain ⟨rfl, rfl⟩ := ht
    exact ⟨_, .refl _, .refl _⟩
  | quiet _ hq ha ih =>
    obtain ⟨c1, h1, h2⟩ := ih ht
    exact ⟨c1, h1, .quiet h2 hq ha⟩
  | @next c' c'' t kind calls r hx hn hl ih =>
    rcases List.eq_nil_or_concat t2 with rfl | ⟨t3, s, rfl⟩
    · simp only [List.append_nil] at ht
      subst ht
      exact ⟨_, .next hx hn hl, .refl _⟩
    · rw [List.concat_eq_append, ← List.append_assoc] at ht
      obtain ⟨ht1, ht2⟩ := List.append_inj' ht rfl
      simp only [List.cons.injEq, and_true] at ht2
      subst ht2
      obtain ⟨c1, h1, h2⟩ := ih ht1
      rw [List.concat_eq_append]
      exact ⟨c1, h1, .next h2 hn hl⟩

/-- What the last `next` of an execution returned describes the state it left behind. -/
theorem Exec.last_result {c0 : CMAES n F R} {s : NextCall n F} {d : TerminationData n F}
    (h : Exec env c0 (t ++ [s]) c) (hd : s.result = some d) :
    d.currentBest = c.currentBestIndividual ∧ d.overallBest = c.overallBestIndividual ∧
      d.finalMean = c.mean := by
  generalize ht : t ++ [s] = u at h
  induction h with
  | refl => simp at ht
  | quiet _ hq ha ih =>
    obtain ⟨ss, _⟩ := quiet_sameSearch hq ha
    obtain ⟨h1, h2, h3⟩ := ih ht
    simp only [CMAES.currentBestIndividual, CMAES.overallBestIndividual, CMAES.mean] at *
    rw [ss.history, ss.state]
    exact ⟨h1, h2, h3⟩
  | @next c' c'' t' kind calls r hx hn hl ih =>
    obtain ⟨_, ht2⟩ := List.append_inj' ht rfl
    simp only [List.cons.injEq, and_true] at ht2
    subst ht2
    simp only at hd
    obtain ⟨calls', _, _, _, _, _, hcase⟩ := next_cases hn
    have key : ∃ rs, r = some (c''.terminationData rs) := by
      rcases hcase with hf | ⟨ps, inds, hcomp, _⟩
      · exact ⟨_, hf.result⟩
      · rcases hcomp.result with h | ⟨c2, reasons, _, _, h⟩
        · exact ⟨_, h⟩
        · rw [hd] at h ⊢
          split at h
          · simp at h
          · exact ⟨reasons, h⟩
    obtain ⟨rs, hr⟩ := key
    rw [hd] at hr
    have := Option.some.inj hr
    subst this
    exact ⟨rfl, rfl, rfl⟩

/-- **C01/C03 for `TerminationData`.** The data returned by any `next` call (hence by `run`) holds
the best individuals and the mean of the `CMAES` at that moment: `c1` is the state after the calls
up to and including `s`, so C01-C03 apply to it. -/
theorem c01_termination_data {t1 t2 : List (NextCall n F)} {s : NextCall n F}
    {d : TerminationData n F} (h : History.Of env obj o (t1 ++ s :: t2) c)
    (hd : s.result = some d) :
    ∃ c1, History.Of env obj o (t1 ++ [s]) c1 ∧ Exec env c1 t2 c ∧
      d.currentBest = c1.currentBestIndividual ∧ d.overallBest = c1.overallBestIndividual ∧
      d.finalMean = c1.mean := by
  obtain ⟨w, c0, h0, he⟩ := h
  rw [show t1 ++ s :: t2 = (t1 ++ [s]) ++ t2 by simp] at he
  obtain ⟨c1, h1, h2⟩ := he.split
  exact ⟨c1, ⟨w, c0, h0, h1⟩, h2, h1.last_result hd⟩

/-- **C03 for `TerminationData`.** The fields are `None` only if `InvalidFunctionValue` was
reported by every `next` so far. -/
theorem c03_termination_data {t1 t2 : List (NextCall n F)} {s : NextCall n F}
    {d : TerminationData n F} (h : History.Of env obj o (t1 ++ s :: t2) c)
    (hd : s.result = some d) (hnone : d.currentBest = none ∨ d.overallBest = none) :
    ∀ s' ∈ t1 ++ [s], s'.Failed := by
  obtain ⟨c1, h1, _, e1, e2, _⟩ := c01_termination_data h hd
  obtain ⟨p1, p2⟩ := c03_presence h1
  intro s' hs'
  by_contra hc
  rcases hnone with h | h
  · rw [e1] at h
    have := p1.mpr ⟨s', hs', hc⟩
    rw [h] at this; simp at this
  · rw [e2] at h
    have := p2.mpr ⟨s', hs', hc⟩
    rw [h] at this; simp at this

/-- **C04.** Whatever is done after `c`, the overall best individual stays, or is replaced by a
strictly better one. -/
theorem c04_monotone {u : List (NextCall n F)} {c' : CMAES n F R}
    (h : History.Of env obj o t c) (h' : Exec env c u c') {x : Individual n F}
    (hx : c.overallBestIndividual = some x) :
    ∃ x', c'.overallBestIndividual = some x' ∧ (x' = x ∨ Better o.mode x'.value x.value) := by
  obtain ⟨hxn, _⟩ := c01_overall_best h hx
  induction h' with
  | refl => exact ⟨x, hx, .inl rfl⟩
  | quiet _ hq ha ih =>
    obtain ⟨ss, _⟩ := quiet_sameSearch hq ha
    obtain ⟨x', h1, h2⟩ := ih
    simp only [CMAES.overallBestIndividual] at *
    exact ⟨x', by rw [ss.history, h1], h2⟩
  | @next c1 c2 t' kind calls r hx' hn hl ih =>
    obtain ⟨x', h1, h2⟩ := ih
    obtain ⟨w, c0, h0, he⟩ := h
    have hm : c1.parameters.mode = o.mode := by
      obtain ⟨gs, i, _⟩ := fresh_inv ⟨w, c0, h0, he.trans hx'⟩
      rw [i.parameters]; rfl
    obtain ⟨calls', _, _, _, _, _, hcase⟩ := next_cases hn
    simp only [CMAES.overallBestIndividual] at *
    rcases hcase with hf | ⟨ps, inds, hcomp, _⟩
    · exact ⟨x', by rw [hf.history, h1], h2⟩
    · obtain ⟨b, rest, med, _, _, _, _, _, _, _, hb⟩ := history_update_eq_ok hcomp.history
      rw [h1, hm] at hb
      simp only at hb
      split at hb
      · rename_i hbet
        refine ⟨_, hb, .inr ?_⟩
        obtain ⟨b1, b2, b3⟩ := Mode.isBetter_iff.mp hbet
        rcases h2 with rfl | h2
        · exact better_iff.mpr ⟨b1, b2, b3⟩
        · exact better_iff.mpr ⟨b1, hxn, b3.trans (better_iff.mp h2).2.2⟩
      · exact ⟨x', hb, h2⟩

/-- **C04, current best.** The current best is never strictly better than the overall best. -/
theorem c04_current (h : History.Of env obj o t c) {x y : Individual n F}
    (hx : c.overallBestIndividual = some x) (hy : c.currentBestIndividual = some y) :
    ¬ Better o.mode y.value x.value := by
  obtain ⟨_, hno, _⟩ := c01_overall_best h hx
  obtain ⟨gs, i, _⟩ := fresh_inv h
  apply hno (y.point, y.value)
  rw [i.completedCalls]
  rcases i.best with ⟨_, h1, _⟩ | ⟨⟨gs', b, rest, hg, ho⟩, _⟩
  · simp only [CMAES.currentBestIndividual, h1] at hy; simp at hy
  · simp only [CMAES.currentBestIndividual, ho] at hy
    have := Option.some.inj hy
    subst this
    obtain ⟨gs1, gr, rfl, _, hgr⟩ := List.map_eq_append_iff.mp hg
    obtain ⟨g, gs2, rfl, hgb, _⟩ := List.map_eq_cons_iff.mp hgr
    refine List.mem_flatMap.mpr ⟨g, by simp, ?_⟩
    rw [(i.sampled g (by simp)).callsPerm.mem_iff]
    exact List.mem_map.mpr ⟨b, by rw [hgb]; simp, rfl⟩

end

/-! ### The hypotheses are met by real executions -/

section
open Witness
set_option maxRecDepth 100000

/-- Two generations (one of them parallel), with both best individuals present. -/
example : ∃ t c, History.Of (wenv 2) sphere opts t c ∧
    (decide (t.length = 2) && (t.all fun s => decide (¬ s.Failed)) &&
      c.overallBestIndividual.isSome && c.currentBestIndividual.isSome) = true :=
  exists_history [.seq, .par] _ opts_valid (by decide +kernel)

/-- A run in which the second of three calls reports `InvalidFunctionValue`. -/
example : ∃ t c, History.Of (wenv 2) nanAtSix opts t c ∧
    (decide (t.map (fun s => decide s.Failed) = [false, true, false]) &&
      c.overallBestIndividual.isSome) = true :=
  exists_history [.seq, .seq, .seq] _ opts_valid (by decide +kernel)

/-- The overall best individual is really replaced in a run. -/
example : ∃ t c, History.Of (wenv 2) sphere opts t c ∧
    (decide (t.length = 2) && (match c.currentBestIndividual, c.overallBestIndividual with
      | some y, some x => Flt.lt y.value x.value || Flt.lt x.value y.value ||
          Flt.feq x.value y.value
      | _, _ => false)) = true :=
  exists_history [.seq, .seq] _ opts_valid (by decide +kernel)
end

end Cmaes
