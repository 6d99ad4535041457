import Verif.Props.Print
import Verif.Props.Covariance
import Verif.Props.Tolerance

/-!
# No panics (C26)
-/

namespace Cmaes
variable {n : Nat} {F R : Type} [Flt F] [FltLaws F]
variable {env : Env n F R} {obj : Obj n F} {o : Options n F} {t : List (NextCall n F)}
  {c c' : CMAES n F R}
open FltLaws

set_option linter.unusedSectionVars false

/-! ### The parts of a step -/

theorem mapM_total {α β : Type} {f : α → Outcome β} {l : List α} (h : ∀ a ∈ l, ∃ b, f a = .ok b) :
    ∃ r, l.mapM f = .ok r := by
  induction l with
  | nil => exact ⟨[], rfl⟩
  | cons a l ih =>
    obtain ⟨b, hb⟩ := h a (by simp)
    obtain ⟨r, hr⟩ := ih fun x hx => h x (by simp [hx])
    exact ⟨b :: r, by simp [List.mapM_cons, hb, hr]⟩

theorem medianValue_ok {inds : List (EvaluatedPoint n F)} (h : 2 ≤ inds.length) :
    ∃ m, medianValue inds = .ok m := by
  unfold medianValue
  by_cases he : inds.length % 2 = 0
  · rw [if_pos he, if_neg (by omega), List.getElem?_eq_getElem (by omega),
      List.getElem?_eq_getElem (by omega)]
    exact ⟨_, rfl⟩
  · rw [if_neg he, List.getElem?_eq_getElem (by omega)]
    exact ⟨_, rfl⟩

theorem history_update_ok {h : History n F} {mode : Mode} {inds : List (EvaluatedPoint n F)}
    (hl : 2 ≤ inds.length) : ∃ h', h.update mode inds = .ok h' := by
  obtain ⟨m, hm⟩ := medianValue_ok hl
  unfold History.update
  rw [List.getElem?_eq_getElem (by omega), hm]
  exact ⟨_, rfl⟩

theorem weightedStep_ok {p : Parameters F} {inds : List (EvaluatedPoint n F)} (h0 : 0 < p.mu)
    (h1 : p.mu ≤ p.weights.length) (h2 : inds ≠ []) : ∃ y, weightedStep p inds = .ok y := by
  unfold weightedStep
  obtain ⟨r, hr⟩ := mapM_total (l := (inds.take p.mu).zipIdx) (f := fun x : EvaluatedPoint n F × Nat => do
      let w ← Outcome.unwrap .index p.weights[x.2]?
      Outcome.ok (x.1.unscaledStep.smul w)) (by
    rintro ⟨ind, i⟩ hx
    have := List.mem_zipIdx hx
    have hi : i < p.weights.length := by
      have := this.2.1
      simp only [List.length_take] at this
      omega
    rw [List.getElem?_eq_getElem hi]
    exact ⟨_, rfl⟩)
  rw [hr]
  have hl := mapM_length hr
  cases r with
  | nil =>
    exfalso
    simp only [List.length_nil, List.length_zipIdx, List.length_take] at hl
    have : inds.length ≠ 0 := fun hh => h2 (List.length_eq_zero_iff.mp hh)
    omega
  | cons a l => exact ⟨_, rfl⟩

theorem rankMuUpdate_ok {p : Parameters F} {tree : SplitTree} {S : Mat n F}
    {inds : List (EvaluatedPoint n F)} (h0 : p.weights ≠ [])
    (h1 : p.weights.length ≤ inds.length) : ∃ m, rankMuUpdate p tree S inds = .ok m := by
  unfold rankMuUpdate
  obtain ⟨r, hr⟩ := mapM_total (l := p.weights.zipIdx)
      (f := fun x : F × Nat => rankMuTerm p S inds x.2 x.1) (by
    rintro ⟨w, i⟩ hx
    have hi : i < p.weights.length := by
      have := (List.mem_zipIdx hx).2.1
      omega
    unfold rankMuTerm
    rw [List.getElem?_eq_getElem (by omega)]
    exact ⟨_, rfl⟩)
  rw [hr]
  simp only [Outcome.ok_bind]
  split
  · exact ⟨_, rfl⟩
  · have hl := mapM_length hr
    cases r with
    | nil =>
      exfalso
      simp only [List.length_nil, List.length_zipIdx] at hl
      exact h0 (List.length_eq_zero_iff.mp hl.symm)
    | cons a l => exact ⟨_, rfl⟩

theorem update_ok {eigen : Mat n F → Option (Mat n F × Vec n F)} {tree : SplitTree} {evals : Nat}
    {p : Parameters F} {inds : List (EvaluatedPoint n F)} {s : State n F} (h0 : 0 < p.mu)
    (h1 : p.mu ≤ p.weights.length) (h2 : p.weights.length ≤ inds.length)
    (hg : s.generation < 2 ^ 30 - 1) :
    ∃ x, s.update eigen tree evals p inds = .ok x := by
  have hw : p.weights ≠ [] := by rintro h; rw [h] at h1; simp at h1; omega
  have hi : inds ≠ [] := by rintro rfl; simp at h2; exact hw h2
  obtain ⟨yw, hy⟩ := weightedStep_ok (inds := inds) h0 h1 hi
  obtain ⟨rm, hrm⟩ := rankMuUpdate_ok (tree := tree) (S := s.cov.sqrtInv) (inds := inds) hw h2
  unfold State.update
  rw [hy, hrm]
  simp only [Outcome.ok_bind]
  unfold heaviside
  rw [if_neg (by omega)]
  simp only [Outcome.ok_bind]
  generalize CovMat.setCov eigen s.cov _ _ = x
  obtain ⟨cov, b⟩ := x
  cases b <;> exact ⟨_, rfl⟩

/-! ### The termination check -/

/-- Data for which `statrs`' median is well defined, or an environment in which it always returns
something. -/
def MedianSafe (med : List F → Outcome F) (l : List F) : Prop :=
  (∀ x ∈ l, Flt.isNaN x = false) ∨ ∀ l, ∃ v, med l = .ok v

theorem statrsMedian_ok' {med : List F → Outcome F} {l l' : List F} (h : MedianSafe med l)
    (hs : l' ⊆ l) : ∃ v, statrsMedian med l' = .ok v := by
  by_cases hn : ∀ x ∈ l', Flt.isNaN x = false
  · exact statrsMedian_ok hn
  · rcases h with h | h
    · exact absurd (fun x hx => h x (hs hx)) hn
    · unfold statrsMedian
      have : l'.any Flt.isNaN = true := by
        push Not at hn
        obtain ⟨x, hx, hxn⟩ := hn
        exact List.any_eq_true.mpr ⟨x, hx, by simpa using hxn⟩
      rw [if_pos this]
      exact h l'

theorem didValuesRegress_ok {med : List F → Outcome F} {mode : Mode} {g : Nat} {values : List F}
    (h : MedianSafe med values) (hg : g ≤ maxHistoryLength) :
    ∃ b, didValuesRegress med mode g values = .ok b := by
  unfold didValuesRegress
  have e : Flt.toUsize (Flt.ofNat g * Flt.ofRat (3 / 10) : F) = 3 * g / 10 :=
    three_tenths g (le_trans hg (by decide))
  simp only [e]
  rw [if_neg (by omega)]
  have s1 : (values.take g).drop (g - 3 * g / 10) ⊆ values :=
    List.Subset.trans (List.drop_subset _ _) (List.take_subset _ _)
  have s2 : (values.take g).take (3 * g / 10) ⊆ values :=
    List.Subset.trans (List.take_subset _ _) (List.take_subset _ _)
  obtain ⟨a, ha⟩ := statrsMedian_ok' h s1
  obtain ⟨b, hb⟩ := statrsMedian_ok' h s2
  rw [ha, hb]
  exact ⟨_, rfl⟩

theorem range_ok {l : List F} (h0 : l ≠ []) (h : ∀ x ∈ l, Flt.isNaN x = false) :
    ∃ d, Outcome.unwrap .unwrap (range l) = .ok d := by
  cases hr : range l with
  | some d => exact ⟨d, rfl⟩
  | none =>
    rcases range_none.mp hr with h1 | ⟨x, hx, hn⟩
    · exact absurd h1 h0
    · rw [h x (List.mem_of_mem_tail hx)] at hn
      simp at hn

theorem check_ok {med : List F → Outcome F} {tc : TerminationCheck n F} (hn : 0 < n)
    (hi : tc.individuals ≠ []) (hin : ∀ p ∈ tc.individuals, Flt.isNaN p.value = false)
    (hb : ∀ x ∈ tc.history.bestValues, Flt.isNaN x = false)
    (hm : MedianSafe med tc.history.medianValues) : ∃ rs, tc.check med = .ok rs := by
  have h1 : ∃ l, tc.tolFun = .ok l := by
    unfold TerminationCheck.tolFun
    simp only
    split
    · rename_i hle
      have hpos : 10 ≤ pastGenerationsA F tc.parameters.dim tc.parameters.lambda :=
        Nat.le_add_right _ _
      obtain ⟨d, hd⟩ := range_ok (l := tc.history.bestValues.take
          (pastGenerationsA F tc.parameters.dim tc.parameters.lambda)) (by
        intro h
        have := congrArg List.length h
        simp only [List.length_take, List.length_nil] at this
        omega) (fun x hx => hb x (List.mem_of_mem_take hx))
      obtain ⟨d', hd'⟩ := range_ok (l := tc.individuals.map fun p => p.value) (by simpa using hi)
        (by simpa using hin)
      rw [hd, hd']
      exact ⟨_, rfl⟩
    · exact ⟨_, rfl⟩
  have h2 : ∃ b, tc.noEffectAxis = .ok b := by
    unfold TerminationCheck.noEffectAxis
    rw [dif_pos hn]
    exact ⟨_, rfl⟩
  have h3 : ∃ b, tc.tolStagnation med = .ok b := by
    unfold TerminationCheck.tolStagnation
    split
    · exact ⟨_, rfl⟩
    · rename_i g hg
      unfold tolStagnationGenerations at hg
      have hgle : g ≤ maxHistoryLength := by
        simp only at hg
        split at hg
        · simp at hg
        · injection hg with hg; omega
      split
      · obtain ⟨a, ha⟩ := didValuesRegress_ok (mode := tc.parameters.mode) (med := med) (.inl hb) hgle
        rw [ha]
        simp only [Outcome.ok_bind]
        split
        · exact didValuesRegress_ok hm hgle
        · exact ⟨_, rfl⟩
      · exact ⟨_, rfl⟩
  have h4 : ∃ b, tc.tolXUp = .ok b := by
    unfold TerminationCheck.tolXUp maxBy
    cases hl : List.ofFn tc.state.cov.sqrtEigenvalues.diag with
    | nil =>
      have := congrArg List.length hl
      simp at this
      omega
    | cons a l => exact ⟨_, rfl⟩
  obtain ⟨_, h1⟩ := h1
  obtain ⟨_, h2⟩ := h2
  obtain ⟨_, h3⟩ := h3
  obtain ⟨_, h4⟩ := h4
  unfold TerminationCheck.check
  rw [h1, h2, h3, h4]
  exact ⟨_, rfl⟩

/-! ### Invariants of the counters used in sums -/

theorem next_evals_mono {kind : EvalKind} {r : Option (TerminationData n F)}
    (hn : c.next env kind = .ok (c', r)) : c.functionEvals ≤ c'.functionEvals := by
  obtain ⟨_, _, _, _, _, _, hf | ⟨_, _, hc, _⟩⟩ := next_cases hn
  · exact hf.evals.ge
  · exact (Nat.le_add_right _ _).trans hc.evals.ge

theorem lastPrintEvals_le (h : History.Of env obj o t c) : c.lastPrintEvals ≤ c.functionEvals := by
  obtain ⟨w, c0, h0, he⟩ := h
  induction he with
  | refl =>
    obtain ⟨_, rfl⟩ := new_eq_ok h0
    have : (CMAES.create env w obj o).lastPrintEvals = 0 := by
      unfold CMAES.create
      by_cases hg : o.printGapEvals.isSome = true
      · simp only [CMAES.addPlotPoint, hg, if_true]; rfl
      · simp only [CMAES.addPlotPoint, hg]; rfl
    omega
  | quiet _ hq ha ih =>
    have := quiet_lastPrint hq ha
    have h2 := (quiet_sameSearch hq ha).1.sampler
    unfold CMAES.functionEvals at *
    rw [this, h2]
    exact ih
  | next he hn hl ih =>
    rename_i c1 c2 t1 kind calls r
    obtain ⟨h1, h2⟩ := next_print hn hl
    have hmono := next_evals_mono hn
    by_cases hc : NextCall.Checked ⟨kind, calls, r⟩
    · have h2 := h2 hc
      split at h2
      · rw [h2.2]; omega
      · split at h2
        · rw [h2.2]; exact le_refl _
        · rw [h2.1]; omega
    · rw [(h1 hc).2]; omega

theorem Faithful.values {f : List (Vec n F × F) → Vec n F → F} {log calls : List (Vec n F × F)}
    (h : Faithful f log calls) {P : F → Prop} (hf : ∀ l x, P (f l x)) : ∀ e ∈ calls, P e.2 := by
  induction calls generalizing log with
  | nil => simp
  | cons e calls ih =>
    obtain ⟨x, v⟩ := e
    obtain ⟨h1, h2⟩ := h
    intro e he
    rcases List.mem_cons.mp he with rfl | he
    · simp only; rw [h1]; exact hf _ _
    · exact ih h2 e he

theorem isNaN_mean {a b : F} (ha : Flt.isNaN a = false) (hb : Flt.isNaN b = false)
    (ia : Flt.isInf a = false) : Flt.isNaN ((a + b) / 2) = false := by
  rw [isNaN_half]
  by_contra h
  have h : Flt.isNaN (a + b) = true := by simpa using h
  rcases isNaN_add.mp h with h | h | ⟨h, _⟩ | ⟨h, _⟩
  · rw [ha] at h; simp at h
  · rw [hb] at h; simp at h
  · have := isInf_iff.mpr ⟨ha, .inl h⟩; rw [ia] at this; simp at this
  · have := isInf_iff.mpr ⟨ha, .inr h⟩; rw [ia] at this; simp at this

theorem IsMedian.noNaN {l : List F} {m : F} (h : IsMedian l m)
    (hn : ∀ x ∈ l, Flt.isNaN x = false) (hi : ∀ x ∈ l, Flt.isInf x = false) :
    Flt.isNaN m = false := by
  obtain ⟨s, hp, _, h1, h2⟩ := h
  rcases Nat.mod_two_eq_zero_or_one l.length with he | he
  · obtain ⟨a, b, ha, hb, rfl⟩ := h2 he
    have ha' := hp.mem_iff.mp (List.mem_of_getElem? ha)
    have hb' := hp.mem_iff.mp (List.mem_of_getElem? hb)
    exact isNaN_mean (hn a ha') (hn b hb') (hi a ha')
  · exact hn m (hp.mem_iff.mp (List.mem_of_getElem? (h1 he)))

/-- With finite objective values all medians in the history are numbers. -/
theorem medians_noNaN_of_finite (h : History.Of env obj o t c)
    (hf : ∀ log x, Flt.isInf (obj.f log x) = false) :
    ∀ v ∈ c.history.medianValues, Flt.isNaN v = false := by
  obtain ⟨_, h1⟩ := c27_history h
  obtain ⟨gs, i, _⟩ := fresh_inv h
  have hfin := i.faithful.values (P := fun v => Flt.isInf v = false) hf
  have key : ∀ {l : List (NextCall n F)} {vs : List F},
      List.Forall₂ (fun s v => IsMedian s.values v) l vs →
      (∀ s ∈ l, ∀ e ∈ s.calls, Flt.isNaN e.2 = false ∧ Flt.isInf e.2 = false) →
      ∀ v ∈ vs, Flt.isNaN v = false := by
    intro l vs hl
    induction hl with
    | nil => simp
    | cons hm _ ih =>
      intro hs v hv
      rcases List.mem_cons.mp hv with rfl | hv
      · refine hm.noNaN ?_ ?_
        · intro x hx
          obtain ⟨e, he, rfl⟩ := List.mem_map.mp hx
          exact (hs _ (by simp) e he).1
        · intro x hx
          obtain ⟨e, he, rfl⟩ := List.mem_map.mp hx
          exact (hs _ (by simp) e he).2
      · exact ih (fun s hs' => hs s (by simp [hs'])) v hv
  refine key h1 ?_
  intro s hs e he
  have hs' := List.mem_of_mem_take hs
  refine ⟨completed_noNaN h hs' e he, hfin e ?_⟩
  exact List.mem_flatMap.mpr ⟨s, (completedNewest_mem hs').1, he⟩

/-! ### C26 -/

/-- What `next` needs in order not to panic: constraints that do not panic, fewer than `2^30 - 1`
generations so far, gaps for plotting and printing that do not overflow the evaluation counter, and
either finite objective values or an environment in which the median of data containing NaN does
not panic. -/
structure CanStep (env : Env n F R) (obj : Obj n F) (o : Options n F) (c : CMAES n F R) :
    Prop where
  constraints : ∀ k, o.constraints = some k → ∀ x : Vec n F, ∃ b, k (List.ofFn x) = .ok b
  generation : c.generation < 2 ^ 30 - 1
  plotGap : ∀ po, o.plotOptions = some po → c.functionEvals + po.minGapEvals < 2 ^ 64
  printGap : ∀ gap, o.printGapEvals = some gap → c.functionEvals + gap < 2 ^ 64
  median : (∀ l, ∃ v, env.medianNaN l = .ok v) ∨ ∀ log x, Flt.isInf (obj.f log x) = false

/-- The new history contains only numbers as best values, and as medians if the objective values
are finite. -/
theorem history_update_noNaN {h h' : History n F} {mode : Mode}
    {inds : List (EvaluatedPoint n F)} (hu : h.update mode inds = .ok h')
    (hn : ∀ p ∈ inds, Flt.isNaN p.value = false) :
    ((∀ v ∈ h.bestValues, Flt.isNaN v = false) → ∀ v ∈ h'.bestValues, Flt.isNaN v = false) ∧
    ((∀ v ∈ h.medianValues, Flt.isNaN v = false) → (∀ p ∈ inds, Flt.isInf p.value = false) →
      ∀ v ∈ h'.medianValues, Flt.isNaN v = false) := by
  have key : ∀ {x : F} {l : List F}, Flt.isNaN x = false → (∀ v ∈ l, Flt.isNaN v = false) →
      ∀ v ∈ pushCapped x l, Flt.isNaN v = false := by
    intro x l hx hl v hv
    have : v ∈ x :: l := by
      unfold pushCapped at hv
      simp only at hv
      split at hv
      · exact List.dropLast_subset _ hv
      · exact hv
    rcases List.mem_cons.mp this with rfl | h
    · exact hx
    · exact hl v h
  obtain ⟨b, rest, med, hi, hmed, e1, e2, _⟩ := history_update_eq_ok hu
  refine ⟨fun hb => ?_, fun hm hf => ?_⟩
  · rw [e1]
    exact key (hn b (by simp [hi])) hb
  · rw [e2]
    refine key ?_ hm
    unfold medianValue at hmed
    split at hmed
    · split at hmed
      · simp at hmed
      · simp only [Outcome.bind_eq_ok] at hmed
        obtain ⟨a, ha, b, hb, hmed⟩ := hmed
        injection hmed with hmed
        have ha := List.mem_of_getElem? (getElem?_of_unwrap ha)
        have hb := List.mem_of_getElem? (getElem?_of_unwrap hb)
        rw [← hmed]
        exact isNaN_mean (hn a ha) (hn b hb) (hf a ha)
    · simp only [Outcome.bind_eq_ok] at hmed
      obtain ⟨a, ha, hmed⟩ := hmed
      injection hmed with hmed
      rw [← hmed]
      exact hn a (List.mem_of_getElem? (getElem?_of_unwrap ha))

theorem autoPlot_ok (h : ∀ p, c.plot = some p → ∃ e, p.lastDataPointEvals = some e ∧
    e + p.options.minGapEvals < 2 ^ 64) : ∃ c', c.autoPlot = .ok c' := by
  unfold CMAES.autoPlot
  split
  · exact ⟨_, rfl⟩
  · rename_i p hp
    obtain ⟨e, he, hlt⟩ := h p hp
    split
    · exact ⟨_, rfl⟩
    · unfold Plot.nextDataPointEvals usizeAdd
      rw [he]
      simp only
      rw [if_neg (by omega)]
      exact ⟨_, rfl⟩

theorem autoPrint_ok (h : ∀ gap, c.printGapEvals = some gap → c.lastPrintEvals + gap < 2 ^ 64) :
    ∃ c', c.autoPrint = .ok c' := by
  unfold CMAES.autoPrint
  split
  · exact ⟨_, rfl⟩
  · rename_i gap hg
    have := h gap hg
    unfold usizeAdd
    rw [if_neg (by omega)]
    exact ⟨_, rfl⟩

theorem lastPrint_autoPlot (h : c.autoPlot = .ok c') : c'.lastPrintEvals = c.lastPrintEvals := by
  unfold CMAES.autoPlot at h
  split at h
  · injection h with h; subst h; rfl
  · split at h
    · injection h with h; subst h; rfl
    · simp only [Outcome.bind_eq_ok] at h
      obtain ⟨a, _, h⟩ := h
      injection h with h
      subst h
      split <;> rfl

theorem checkTermination_ok {inds : List (EvaluatedPoint n F)} (hn : 0 < n) (hi : inds ≠ [])
    (hin : ∀ p ∈ inds, Flt.isNaN p.value = false)
    (hb : ∀ x ∈ c.history.bestValues, Flt.isNaN x = false)
    (hm : MedianSafe env.medianNaN c.history.medianValues) :
    ∃ x, c.checkTermination env inds = .ok x := by
  unfold CMAES.checkTermination
  generalize (if c.parameters.termination.maxTime.isSome then c.world.now env
    else (c.timeCreated, c.world)) = x
  obtain ⟨now, w⟩ := x
  simp only
  obtain ⟨rs, hrs⟩ := check_ok (med := env.medianNaN)
    (tc := { evals := c.sampler.functionEvals, elapsed := now - c.timeCreated
             parameters := c.parameters, state := c.state, history := c.history
             individuals := inds }) hn hi hin hb hm
  rw [hrs]
  exact ⟨_, rfl⟩

theorem sample_ok {kind : EvalKind} {sched : Sched} {T : Mat n F} {mean : Vec n F} {sigma : F}
    {mode : Mode} {s : Sampler n F R} {ys : List (Vec n F)} {r : R}
    (h : resample env.rng T mean sigma s.constraints s.maxResamples s.populationSize
      env.resampleFuel 0 [] s.rng = .ok (ys, r)) :
    ∃ x, s.sample env kind sched T mean sigma mode = .ok x := by
  unfold Sampler.sample
  rw [h]
  simp only [Outcome.ok_bind]
  split <;> exact ⟨_, rfl⟩

/-- **C26.** From every reachable state `next` and `next_parallel` return, unless the resampling
loop does not end: they do not panic. -/
theorem c26_next (h : History.Of env obj o t c) (hs : CanStep env obj o c) (kind : EvalKind) :
    (∃ c' r, c.next env kind = .ok (c', r)) ∨
      c.next env kind = .diverge ∧ drawnSteps env c = .diverge := by
  obtain ⟨gs, i, _⟩ := fresh_inv h
  cases hd : drawnSteps env c with
  | panic p =>
    exact absurd hd (resample_no_panic (by rw [i.constraints]; exact hs.constraints) (by simp))
  | diverge =>
    refine .inr ⟨?_, rfl⟩
    unfold drawnSteps at hd
    unfold CMAES.next Sampler.sample
    simp only [hd]
    rfl
  | ok x =>
    left
    obtain ⟨ys, r⟩ := x
    obtain ⟨⟨res, smp⟩, hx⟩ := sample_ok (kind := kind) (sched := env.sched c.world.steps)
      (mode := c.parameters.mode) hd
    unfold CMAES.next
    simp only [hx, Outcome.ok_bind]
    cases res with
    | none => exact ⟨_, _, rfl⟩
    | some inds =>
      obtain ⟨_, calls, _, hlog, _, hcase⟩ := sample_cases hx
      obtain ⟨ps, _, rfl, hsam, _, hev⟩ : ∃ ps inds', inds = inds' ∧ Sampled kind c.state.mean
          c.state.sigma c.parameters.mode c.sampler.populationSize calls ps inds' ∧
          ps.map (fun p => p.unscaledStep) = _ ∧
          smp.functionEvals = c.sampler.functionEvals + c.sampler.populationSize := by
        rcases hcase with ⟨h, _⟩ | ⟨ps, inds', h, rest⟩
        · simp at h
        · exact ⟨ps, inds', Option.some.inj h, rest⟩
      have hlen := hsam.length
      rw [i.populationSize] at hlen
      have h2 := two_le_population i.valid
      have hne : inds ≠ [] := by rintro rfl; simp at hlen; omega
      obtain ⟨hist, hh⟩ := history_update_ok (h := c.history) (mode := c.parameters.mode)
        (inds := inds) (by omega)
      simp only [hh, Outcome.ok_bind]
      have hwl := length_weights o (o.seed.getD env.randomSeed)
      have hmu : c.parameters.mu = o.populationSize / 2 := by rw [i.parameters]; rfl
      obtain ⟨⟨st, b⟩, hup⟩ := update_ok (eigen := env.eigen) (tree := env.redTree c.world.steps)
        (evals := smp.functionEvals) (p := c.parameters) (inds := inds) (s := c.state)
        (by omega)
        (by rw [hmu, i.parameters, hwl]; split <;> omega)
        (by rw [i.parameters, hwl, hlen]; split <;> omega)
        hs.generation
      unfold CMAES.nextInternal
      simp only [hup, Outcome.ok_bind]
      cases b with
      | false => exact ⟨_, _, rfl⟩
      | true =>
        simp only [if_true]
        obtain ⟨_, hplot⟩ := plot_inv h
        obtain ⟨c1, h1⟩ := autoPlot_ok (c := { c with sampler := smp, world := { c.world with steps := c.world.steps + 1 }, history := hist, state := st }) (by
          intro p hp
          have pi := hplot p hp
          obtain ⟨_, e, _, he, _, hle, _⟩ := pi.last
          have := hs.plotGap _ pi.options
          refine ⟨e, pi.lastEvals.trans he, ?_⟩
          unfold CMAES.functionEvals at this
          omega)
        rw [h1]
        simp only [Outcome.ok_bind]
        have s1 := sameSearch_autoPlot h1
        obtain ⟨c2, h2⟩ := autoPrint_ok (c := c1) (by
          intro gap hg
          rw [lastPrint_autoPlot h1]
          rw [s1.printGapEvals] at hg
          have := hs.printGap gap (i.printGapEvals ▸ hg)
          have := lastPrintEvals_le h
          simp only
          omega)
        rw [h2]
        simp only [Outcome.ok_bind]
        have s2 := s1.trans (sameSearch_autoPrint h2)
        obtain ⟨nb, nm⟩ := history_update_noNaN hh hsam.inds_noNaN
        obtain ⟨x, hx⟩ := checkTermination_ok (env := env) (c := c2) (dim_pos i.valid) hne
          hsam.inds_noNaN (by rw [s2.history]; exact nb (bestValues_noNaN' h)) (by
            rw [s2.history]
            rcases hs.median with hm | hm
            · exact .inr hm
            · refine .inl (nm (medians_noNaN_of_finite h hm) ?_)
              intro p hp
              obtain ⟨calls', hobj, hfa⟩ := sample_faithful hx
              have hc : calls' = calls := by
                have := congrArg Obj.log hobj
                rw [hlog] at this
                exact (List.append_cancel_left this).symm
              subst hc
              rw [i.f] at hfa
              have := hfa.values (P := fun v => Flt.isInf v = false) hm
              exact this _ (hsam.callsPerm.mem_iff.mpr (List.mem_map_of_mem hp)))
        rw [hx]
        exact ⟨x.1, x.2, rfl⟩

/-- The resampling loop ends: there are no constraints, or the number of resampling rounds is
limited (with enough fuel for the loop of the model). -/
def SamplingEnds (env : Env n F R) (o : Options n F) : Prop :=
  (o.constraints = none ∧ 2 ≤ env.resampleFuel) ∨
    ∃ m, o.maxResamples = some m ∧ m + 2 ≤ env.resampleFuel

theorem drawnSteps_ok (h : History.Of env obj o t c) (he : SamplingEnds env o)
    (hk : ∀ k, o.constraints = some k → ∀ x : Vec n F, ∃ b, k (List.ofFn x) = .ok b) :
    ∃ x, drawnSteps env c = .ok x := by
  obtain ⟨gs, i, _⟩ := fresh_inv h
  unfold drawnSteps
  rw [i.constraints, i.maxResamples]
  cases ho : o.constraints with
  | none =>
    refine ⟨_, (c08_unconstrained ?_).1⟩
    rcases he with ⟨_, h⟩ | ⟨m, _, h⟩ <;> omega
  | some k =>
    rcases he with ⟨h, _⟩ | ⟨m, hm, hf⟩
    · rw [ho] at h; simp at h
    · rw [hm]
      exact ⟨_, (c08_limited (hk k ho) hf).1⟩

/-- **C26, `next` returns.** From every reachable state, if the resampling loop is bounded. -/
theorem c26_returns (h : History.Of env obj o t c) (hs : CanStep env obj o c)
    (he : SamplingEnds env o) (kind : EvalKind) : ∃ c' r, c.next env kind = .ok (c', r) := by
  rcases c26_next h hs kind with h1 | ⟨_, h1⟩
  · exact h1
  · obtain ⟨x, hx⟩ := drawnSteps_ok h he hs.constraints
    rw [hx] at h1
    simp at h1

/-- **C26, quiet operations.** `add_plot_point`, `get_mut_plot().clear()` and the printing functions
return from every reachable state, without any assumption. -/
theorem c26_quiet {op : Op} (h : History.Of env obj o t c) (hq : op.Quiet) :
    ∃ x, c.apply env op = .ok x := by
  cases op with
  | next kind => exact absurd hq (by simp [Op.Quiet])
  | run kind => exact absurd hq (by simp [Op.Quiet])
  | clearPlot =>
    unfold CMAES.apply CMAES.clearPlot
    cases hp : c.plot with
    | none => exact ⟨_, rfl⟩
    | some p =>
      obtain ⟨q, hq, _⟩ := ((plot_inv h).2 p hp).clear
      simp only [hq, Outcome.ok_bind]
      exact ⟨_, rfl⟩
  | _ => exact ⟨_, rfl⟩

/-- **C26, one operation.** If an operation panics then a state from which the assumptions of
`CanStep` fail was reached by the time it panicked. -/
theorem c26_op {op : Op} {p : Panic} (h : History.Of env obj o t c)
    (hp : c.apply env op = .panic p) :
    ∃ u c1, Exec env c u c1 ∧ ¬ CanStep env obj o c1 := by
  by_cases hq : op.Quiet
  · obtain ⟨x, hx⟩ := c26_quiet (env := env) h hq
    rw [hx] at hp
    simp at hp
  cases op with
  | next kind =>
    refine ⟨[], c, .refl c, fun hs => ?_⟩
    simp only [CMAES.apply] at hp
    rcases c26_next h hs kind with ⟨c', r, h1⟩ | ⟨h1, _⟩ <;> rw [h1] at hp <;> simp at hp
  | run kind =>
    unfold CMAES.apply at hp
    rw [Outcome.bind_eq_panic] at hp
    rcases hp with hp | ⟨a, _, hp⟩
    · obtain ⟨u, c1, h1, _, h2⟩ := run_panic hp
      refine ⟨u, c1, h1, fun hs => ?_⟩
      rcases c26_next (h.trans h1) hs kind with ⟨c', r, h3⟩ | ⟨h3, _⟩ <;> rw [h3] at h2 <;>
        simp at h2
    · simp at hp
  | _ => exact absurd trivial hq

/-- **C26, any sequence of operations.** A sequence of calls of the API, continued past termination
or not, panics only after reaching a state outside `CanStep`. -/
theorem c26_ops {ops : List Op} {p : Panic} (h : History.Of env obj o t c)
    (hp : c.applyAll env ops = .panic p) :
    ∃ u c1, History.Of env obj o u c1 ∧ ¬ CanStep env obj o c1 := by
  induction ops generalizing c t with
  | nil => simp [CMAES.applyAll] at hp
  | cons op ops ih =>
    simp only [CMAES.applyAll] at hp
    rw [Outcome.bind_eq_panic] at hp
    rcases hp with hp | ⟨⟨c1, r⟩, h1, hp⟩
    · obtain ⟨u, c1, h1, h2⟩ := c26_op h hp
      exact ⟨_, c1, h.trans h1, h2⟩
    · simp only at hp
      rw [Outcome.bind_eq_panic] at hp
      rcases hp with hp | ⟨a, _, hp⟩
      · obtain ⟨u, h2, _⟩ := apply_exec h1
        exact ih (h.trans h2) hp
      · simp at hp

/-- **C26 and C18, a limited run returns.** With `max_generations = Some(g)` and `g < 2^30`, `run`
returns from every reachable state: it neither panics nor goes on for ever. -/
theorem c26_run {g : Nat} (h : History.Of env obj o t c) (he : SamplingEnds env o)
    (hk : ∀ k, o.constraints = some k → ∀ x : Vec n F, ∃ b, k (List.ofFn x) = .ok b)
    (hm : (∀ l, ∃ v, env.medianNaN l = .ok v) ∨ ∀ log x, Flt.isInf (obj.f log x) = false)
    (hg : o.maxGenerations = some g) (hg' : g < 2 ^ 30) (hc : c.generation < 2 ^ 30 - 1)
    (hplot : ∀ po, o.plotOptions = some po →
      c.functionEvals + o.populationSize * g + po.minGapEvals < 2 ^ 64)
    (hprint : ∀ gap, o.printGapEvals = some gap →
      c.functionEvals + o.populationSize * g + gap < 2 ^ 64)
    (hf : max 1 (g - c.generation) ≤ env.runFuel) (kind : EvalKind) :
    ∃ c' d, c.run env kind = .ok (c', d) := by
  have key : ∀ u c1, Exec env c u c1 → Unfinished kind u →
      ∃ c' r, c1.next env kind = .ok (c', r) := by
    intro u c1 h1 hu
    obtain ⟨e1, e2⟩ := unfinished_counters h h1 hu
    have hlen : u.length ≤ g := by
      by_cases hne : u = []
      · subst hne; simp
      · have := (unfinished_below h h1 hu hne).1 g hg
        omega
    have hmul : o.populationSize * u.length ≤ o.populationSize * g := Nat.mul_le_mul_left _ hlen
    refine c26_returns (h.trans h1) ⟨hk, ?_, ?_, ?_, hm⟩ he kind
    · by_cases hne : u = []
      · subst hne
        simp only [List.length_nil, Nat.add_zero] at e1
        omega
      · have := (unfinished_below h h1 hu hne).1 g hg
        omega
    · intro po hpo
      have := hplot po hpo
      omega
    · intro gap hgap
      have := hprint gap hgap
      omega
  cases hr : c.run env kind with
  | ok x => exact ⟨x.1, x.2, rfl⟩
  | panic p =>
    obtain ⟨u, c1, h1, hu, h2⟩ := run_panic hr
    obtain ⟨c', r, h3⟩ := key u c1 h1 hu
    rw [h3] at h2
    simp at h2
  | diverge =>
    obtain ⟨u, c1, h1, hu, h2 | h2⟩ := run_diverge hr
    · obtain ⟨c', r, h3⟩ := key u c1 h1 hu
      rw [h3] at h2
      simp at h2
    · exfalso
      have hne : u ≠ [] := by rintro rfl; simp at h2; omega
      have := (unfinished_below h h1 hu hne).1 g hg
      obtain ⟨hcg, _⟩ := unfinished_counters h h1 hu
      omega

/-! ### The overflow of the exponent -/

/-- **C26, the limit is real.** At generation `2^30 - 1` and later every generation whose values are
numbers panics with an overflow: the exponent `2 * (generation as i32 + 1)` no longer fits. -/
theorem c26_overflow (h : History.Of env obj o t c) (hg : 2 ^ 30 - 1 ≤ c.generation)
    (hn : ∀ log x, Flt.isNaN (obj.f log x) = false) {ys : List (Vec n F)} {r : R}
    (hd : drawnSteps env c = .ok (ys, r)) (kind : EvalKind) :
    c.next env kind = .panic .overflow := by
  obtain ⟨gs, i, _⟩ := fresh_inv h
  obtain ⟨⟨res, smp⟩, hx⟩ := sample_ok (kind := kind) (sched := env.sched c.world.steps)
    (mode := c.parameters.mode) hd
  unfold CMAES.next
  simp only [hx, Outcome.ok_bind]
  obtain ⟨_, calls, _, hlog, _, hcase⟩ := sample_cases hx
  obtain ⟨calls', hobj, hfa⟩ := sample_faithful hx
  have hc : calls' = calls := by
    have := congrArg Obj.log hobj
    rw [hlog] at this
    exact (List.append_cancel_left this).symm
  subst hc
  rw [i.f] at hfa
  have hnn := hfa.values (P := fun v => Flt.isNaN v = false) hn
  rcases hcase with ⟨_, ⟨e, he, hnan⟩, _⟩ | ⟨ps, inds, hsome, hsam, _, _⟩
  · rw [hnn e he] at hnan
    simp at hnan
  · subst hsome
    have hlen := hsam.length
    rw [i.populationSize] at hlen
    have h2 := two_le_population i.valid
    have hne : inds ≠ [] := by rintro rfl; simp at hlen; omega
    obtain ⟨hist, hh⟩ := history_update_ok (h := c.history) (mode := c.parameters.mode)
      (inds := inds) (by omega)
    simp only [hh, Outcome.ok_bind]
    have hwl := length_weights o (o.seed.getD env.randomSeed)
    have hmu : c.parameters.mu = o.populationSize / 2 := by rw [i.parameters]; rfl
    obtain ⟨yw, hy⟩ := weightedStep_ok (p := c.parameters) (inds := inds) (by omega)
      (by rw [hmu, i.parameters, hwl]; split <;> omega) hne
    unfold CMAES.nextInternal State.update
    simp only [hy, Outcome.ok_bind]
    unfold heaviside
    rw [if_pos (by unfold CMAES.generation at hg; omega)]
    rfl

/-- An eigensolver that always finds a decomposition without non-positive eigenvalues makes every
state update succeed. -/
theorem update_success {eigen : Mat n F → Option (Mat n F × Vec n F)} {tree : SplitTree}
    {evals : Nat} {p : Parameters F} {inds : List (EvaluatedPoint n F)} {s s' : State n F} {b : Bool}
    (he : ∀ m, ∃ B v, eigen m = some (B, v) ∧ ∀ i, Flt.le (v i) 0 = false)
    (h : s.update eigen tree evals p inds = .ok (s', b)) : b = true := by
  simp only [State.update, Outcome.bind_eq_ok] at h
  obtain ⟨yw, _, hs, _, rm, _, h⟩ := h
  have key : ∀ m d, (s.cov.setCov eigen m d).2 = true := by
    intro m d
    unfold CovMat.setCov
    cases d with
    | false => rfl
    | true =>
      simp only [if_true]
      unfold CovMat.updateEigen
      obtain ⟨B, v, h1, h2⟩ := he m.fillLower
      simp only [h1]
      rw [if_neg]
      · rw [List.any_eq_true]
        rintro ⟨x, hx, hle⟩
        rw [List.mem_ofFn] at hx
        obtain ⟨i, rfl⟩ := hx
        rw [h2 i] at hle
        simp at hle
  rw [if_pos (key _ _)] at h
  simp only [Outcome.ok.injEq, Prod.mk.injEq] at h
  exact h.2.symm

/-- **C26, the limit is reached.** Whatever the (finite, number-valued) objective, if the
eigendecompositions succeed then `2^30` calls of `next`, continued past termination, end in a panic,
while no smaller number of calls does. -/
theorem c26_overflow_reached {w : World n F} {c0 : CMAES n F R}
    (h0 : CMAES.new env w obj o = .ok c0)
    (hk : o.constraints = none) (hf : 2 ≤ env.resampleFuel) (hpo : o.plotOptions = none)
    (hpr : o.printGapEvals = none)
    (hn : ∀ log x, Flt.isNaN (obj.f log x) = false) (hi : ∀ log x, Flt.isInf (obj.f log x) = false)
    (he : ∀ m, ∃ B v, env.eigen m = some (B, v) ∧ ∀ i, Flt.le (v i) 0 = false) (kind : EvalKind) :
    c0.applyAll env (List.replicate (2 ^ 30) (.next kind)) = .panic .overflow ∧
    ∀ m, m < 2 ^ 30 → ∃ x, c0.applyAll env (List.replicate m (.next kind)) = .ok x := by
  have hends : SamplingEnds env o := .inl ⟨hk, hf⟩
  have hcon : ∀ k, o.constraints = some k → ∀ x : Vec n F, ∃ b, k (List.ofFn x) = .ok b := by
    intro k hk'; rw [hk] at hk'; simp at hk'
  have step : ∀ t (c : CMAES n F R), History.Of env obj o t c → c.generation < 2 ^ 30 - 1 →
      ∃ c' r t', c.next env kind = .ok (c', r) ∧ History.Of env obj o t' c' ∧
        c'.generation = c.generation + 1 := by
    intro t c h hg
    obtain ⟨c', r, h1⟩ := c26_returns h ⟨hcon, hg, by rw [hpo]; simp, by rw [hpr]; simp, .inr hi⟩
      hends kind
    obtain ⟨calls, _, hl, _, ys, _, hcase⟩ := next_cases h1
    have h2 : Exec env c [⟨kind, calls, r⟩] c' := .next (.refl c) h1 hl
    refine ⟨c', r, _, h1, h.trans h2, ?_⟩
    obtain ⟨gs, i, _⟩ := fresh_inv h
    rcases hcase with hfail | ⟨ps, inds, hcomp, _⟩
    · obtain ⟨e, hm, hnan⟩ := hfail.nan
      have hfa := next_faithful h1 hl
      rw [i.f] at hfa
      have := hfa.values (P := fun v => Flt.isNaN v = false) hn e hm
      rw [this] at hnan
      simp at hnan
    · obtain ⟨b, hu, _⟩ := hcomp.update
      have hb := update_success he hu
      subst hb
      have := update_generation hu
      simpa [CMAES.generation] using this
  have main : ∀ (m : Nat) t (c : CMAES n F R), History.Of env obj o t c →
      (c.generation + m = 2 ^ 30 →
        c.applyAll env (List.replicate m (.next kind)) = .panic .overflow ∨ m = 0) ∧
      (c.generation + m < 2 ^ 30 →
        ∃ x, c.applyAll env (List.replicate m (.next kind)) = .ok x) := by
    intro m
    induction m with
    | zero => exact fun t c _ => ⟨fun _ => .inr rfl, fun _ => ⟨_, rfl⟩⟩
    | succ m ih =>
      intro t c h
      rw [List.replicate_succ]
      simp only [CMAES.applyAll, CMAES.apply]
      constructor
      · intro hm
        left
        by_cases hz : m = 0
        · subst hz
          obtain ⟨⟨ys, r⟩, hd⟩ := drawnSteps_ok h hends hcon
          rw [c26_overflow h (by omega) hn hd kind]
          rfl
        · obtain ⟨c', r, t', h1, h2, h3⟩ := step t c h (by omega)
          rw [h1]
          rcases (ih t' c' h2).1 (by omega) with h4 | h4
          · simp only [Outcome.ok_bind, h4]
            rfl
          · exact absurd h4 hz
      · intro hm
        obtain ⟨c', r, t', h1, h2, h3⟩ := step t c h (by omega)
        obtain ⟨x, hx⟩ := (ih t' c' h2).2 (by omega)
        rw [h1]
        simp only [Outcome.ok_bind, hx]
        exact ⟨_, rfl⟩
  have hof : History.Of env obj o [] c0 := ⟨w, c0, h0, .refl c0⟩
  have hg0 : c0.generation = 0 := by
    have := (c06_generations hof).2.1
    simp at this
    omega
  refine ⟨?_, fun m hm => (main m [] c0 hof).2 (by omega)⟩
  rcases (main (2 ^ 30) [] c0 hof).1 (by omega) with h1 | h1
  · exact h1
  · omega

/-! ### The hypotheses are met -/

open Witness in
/-- A constrained, plotted and printed configuration. -/
def busyOpts : Options 2 F64 :=
  { opts with constraints := some (Bounds.meets ⟨[-100, -100], [100, 100]⟩), maxResamples := some 3, plotOptions := some ⟨0, false⟩, printGapEvals := some 1, maxGenerations := some 5 }

open Witness in
theorem busyOpts_valid : CMAES.validate busyOpts = none := by decide +kernel

open Witness in
theorem busy_constraints (k : Constraint F64) (hk : busyOpts.constraints = some k)
    (x : Vec 2 F64) : ∃ b, k (List.ofFn x) = .ok b := by
  have : k = Bounds.meets ⟨[-100, -100], [100, 100]⟩ := by
    have h : busyOpts.constraints = some (Bounds.meets ⟨[-100, -100], [100, 100]⟩) := rfl
    rw [h] at hk
    exact (Option.some.inj hk).symm
  subst this
  simp only [Bounds.meets, List.ofFn_succ, List.ofFn_zero, Bounds.meetsFrom]
  simp only [List.getElem?_cons_zero, List.getElem?_cons_succ]
  split
  · split
    · split
      · split <;> exact ⟨_, rfl⟩
      · exact ⟨_, rfl⟩
    · exact ⟨_, rfl⟩
  · exact ⟨_, rfl⟩

open Witness in
/-- `CanStep` and the hypotheses of `c26_run` are met by a fresh `CMAES` with constraints, plot and
printing, so its run returns. -/
example : ∃ c0, History.Of (wenv 2) sphere busyOpts [] c0 ∧ CanStep (wenv 2) sphere busyOpts c0 ∧
    ∃ c' d, c0.run (wenv 2) .par = .ok (c', d) := by
  have h : History.Of (wenv 2) sphere busyOpts [] (CMAES.create (wenv 2) World.init sphere busyOpts) :=
    ⟨World.init, _, by simp only [CMAES.new, busyOpts_valid], .refl _⟩
  have hm : ∀ l, ∃ v, (wenv 2).medianNaN l = .ok v := fun l => ⟨_, rfl⟩
  have e1 : (CMAES.create (wenv 2) World.init sphere busyOpts).functionEvals = 0 := rfl
  have e2 : (CMAES.create (wenv 2) World.init sphere busyOpts).generation = 0 := rfl
  have p1 : ∀ po, busyOpts.plotOptions = some po → po.minGapEvals = 0 := by
    intro po hpo
    have : busyOpts.plotOptions = some ⟨0, false⟩ := rfl
    rw [this] at hpo
    rw [← Option.some.inj hpo]
  have p2 : ∀ gap, busyOpts.printGapEvals = some gap → gap = 1 := by
    intro gap hgap
    have : busyOpts.printGapEvals = some 1 := rfl
    rw [this] at hgap
    exact (Option.some.inj hgap).symm
  have p3 : busyOpts.populationSize = 4 := rfl
  refine ⟨_, h, ⟨busy_constraints, by rw [e2]; decide, ?_, ?_, .inl hm⟩, ?_⟩
  · intro po hpo; rw [e1, p1 po hpo]; decide
  · intro gap hgap; rw [e1, p2 gap hgap]; decide
  · refine c26_run (g := 5) h (.inr ⟨3, rfl, by decide⟩) busy_constraints (.inl hm) rfl
      (by decide) (by rw [e2]; decide) ?_ ?_ (by rw [e2]; decide) .par
    · intro po hpo; rw [e1, p1 po hpo, p3]; decide
    · intro gap hgap; rw [e1, p2 gap hgap, p3]; decide

open Witness in
/-- The hypotheses of `c26_overflow_reached` are met: an eigensolver that always returns positive
eigenvalues, a constant objective. -/
example : ∃ env : Env 2 F64 Nat, ∃ c0, CMAES.new env World.init ⟨fun _ _ => 1, []⟩ opts = .ok c0 ∧
    c0.applyAll env (List.replicate (2 ^ 30) (.next .seq)) = .panic .overflow := by
  let env : Env 2 F64 Nat := { wenv 2 with eigen := fun _ => some (Mat.one, fun _ => 1) }
  refine ⟨env, _, by simp only [CMAES.new, opts_valid]; rfl, ?_⟩
  refine (c26_overflow_reached (env := env) (w := World.init) (o := opts)
    (obj := ⟨fun _ _ => 1, []⟩) (by simp only [CMAES.new, opts_valid])
    rfl (by decide) rfl rfl ?_ ?_ ?_ .seq).1
  · intro _ _; show Flt.isNaN (1 : F64) = false; decide +kernel
  · intro _ _; show Flt.isInf (1 : F64) = false; decide +kernel
  · intro m; exact ⟨_, _, rfl, fun i => by decide +kernel⟩

end Cmaes
