import Verif.Lemmas.SearchSim
import Verif.Props.Sampling
import Verif.Witness

/-!
# C14 and C15: what the search does not depend on
-/

set_option linter.unusedSectionVars false

namespace Cmaes
variable {n : Nat} {F R : Type} [Flt F] [FltLaws F]

/-- Without `next` calls the search stays where it is. -/
theorem Exec.nil_sameSearch {env : Env n F R} {c c' : CMAES n F R} (h : Exec env c [] c') :
    SameSearch c c' := by
  generalize ht : ([] : List (NextCall n F)) = t at h
  induction h with
  | refl => exact .refl _
  | next => simp at ht
  | quiet _ hq ha ih => exact (ih ht).trans (quiet_sameSearch hq ha).1

/-- Two executions with related `next` calls. -/
theorem exec_searchSim {φ : F → F} {env env' : Env n F R} (he : SameEnv env env')
    {c0 c0' c c' : CMAES n F R} {t t' : List (NextCall n F)} (hs : SearchSim φ c0 c0')
    (hφ : KeySim c0.sampler.obj.f φ c0.parameters.mode c0'.parameters.mode)
    (h : Exec env c0 t c) (h' : Exec env' c0' t' c')
    (hk : t'.map (fun s => s.kind) = t.map fun s => s.kind) :
    SearchSim φ c c' ∧ KeySim c.sampler.obj.f φ c.parameters.mode c'.parameters.mode ∧
      t'.map (fun s => s.calls) = t.map fun s => mapCalls φ s.calls := by
  induction t using List.reverseRecOn generalizing t' c c' with
  | nil =>
    simp only [List.map_nil, List.map_eq_nil_iff] at hk
    subst hk
    have e1 := h.nil_sameSearch
    have e2 := h'.nil_sameSearch
    exact ⟨hs.of_sameSearch e1 e2, by
      rw [e1.parameters, e2.parameters, e1.sampler]; exact hφ, rfl⟩
  | append_singleton t s ih =>
    cases t' using List.reverseRecOn with
    | nil => simp at hk
    | append_singleton t' s' =>
      simp only [List.map_append, List.map_cons, List.map_nil] at hk
      obtain ⟨hk1, hk2⟩ := List.append_inj' hk rfl
      simp only [List.cons.injEq, and_true] at hk2
      obtain ⟨c1, c2, h1, h2, h3, h4⟩ := h.last_next
      obtain ⟨c1', c2', h1', h2', h3', h4'⟩ := h'.last_next
      obtain ⟨hs1, hφ1, hc⟩ := ih h1 h1' hk1
      rw [hk2] at h2'
      have hs2 := next_searchSim he hs1 hφ1 h2 h2'
      have hcalls := hs1.calls hs2 h3 h3'
      have e1 := h4.nil_sameSearch
      have e2 := h4'.nil_sameSearch
      refine ⟨hs2.of_sameSearch e1 e2, ?_, ?_⟩
      · rw [e1.parameters, e2.parameters, e1.sampler]
        obtain ⟨_, _, hp, _⟩ := next_core h2
        obtain ⟨_, _, hp', _⟩ := next_core h2'
        obtain ⟨_, hcfg, _⟩ := next_cases h2
        rw [hp, hp', hcfg.f]
        exact hφ1
      · simp [hc, hcalls]

/-! ### C14 -/

/-- **C14, preserving the order.** Let `g` preserve and reflect `<` on the values that the objective
can return, and map NaN to NaN and numbers to numbers. (This covers numbers with two zeros, which
`g` must not separate.) Two
runs with the same options, seed and environment, one with the objective `f` and one with `g ∘ f`,
call the objective on the same points with the same results (transformed by `g`) and have, after
the same number of `next` calls, the same mean, step size, covariance matrix, generation and
evaluation paths (the whole search state). -/
theorem c14_order {env : Env n F R} {w : World n F} {obj obj' : Obj n F} {o : Options n F}
    {g : F → F} {c0 c0' c c' : CMAES n F R} {t t' : List (NextCall n F)}
    (hg : ∀ l x l' x', Flt.lt (obj.f l x) (obj.f l' x') = true ↔
      Flt.lt (g (obj.f l x)) (g (obj.f l' x')) = true)
    (hnan : ∀ l x, Flt.isNaN (g (obj.f l x)) = Flt.isNaN (obj.f l x))
    (hobj : Transformed g obj.f obj'.f) (hlog : obj'.log = mapCalls g obj.log)
    (h0 : CMAES.new env w obj o = .ok c0) (h0' : CMAES.new env w obj' o = .ok c0')
    (h : Exec env c0 t c) (h' : Exec env c0' t' c')
    (hk : t'.map (fun s => s.kind) = t.map fun s => s.kind) :
    c'.state = c.state ∧ c'.functionEvals = c.functionEvals ∧
      t'.map (fun s => s.calls) = t.map fun s => mapCalls g s.calls := by
  obtain ⟨_, rfl⟩ := new_eq_ok h0
  obtain ⟨_, rfl⟩ := new_eq_ok h0'
  obtain ⟨a1, a2, a3, _, _, _, _, a4, _⟩ := create_search env w obj o
  obtain ⟨b1, b2, b3, _, _, _, _, b4, _⟩ := create_search env w obj' o
  have hs : SearchSim g (CMAES.create env w obj o) (CMAES.create env w obj' o) := by
    refine ⟨?_, by rw [a3, b3], ⟨_, _, _, by rw [a2, b2]⟩, by rw [a4, b4]⟩
    rw [a1, b1]
    exact ⟨rfl, rfl, rfl, rfl, rfl, hobj, hlog⟩
  have hφ : KeySim (CMAES.create env w obj o).sampler.obj.f g
      (CMAES.create env w obj o).parameters.mode (CMAES.create env w obj' o).parameters.mode := by
    rw [a1, a2, b2]
    have hle : ∀ l x l' x', Flt.isNaN (obj.f l x) = false → Flt.isNaN (obj.f l' x') = false →
        (FltLaws.val (g (obj.f l x)) ≤ FltLaws.val (g (obj.f l' x')) ↔
          FltLaws.val (obj.f l x) ≤ FltLaws.val (obj.f l' x')) := by
      intro l x l' x' ha hb
      have := hg l' x' l x
      rw [FltLaws.lt_iff, FltLaws.lt_iff, hnan, hnan] at this
      simp only [ha, hb, true_and] at this
      rw [← not_lt, ← not_lt, this]
    refine ⟨hnan, fun l x l' x' ha hb => ?_⟩
    cases hm : (Parameters.fromOptions o (o.seed.getD env.randomSeed)).mode with
    | minimize => exact hle l x l' x' ha hb
    | maximize =>
      simp only [Mode.key, EReal.neg_le_neg_iff]
      exact hle l' x' l x hb ha
  obtain ⟨h1, _, h2⟩ := exec_searchSim (.refl env) hs hφ h h' hk
  exact ⟨h1.state, h1.sampler.functionEvals, h2⟩

omit [FltLaws F] in
/-- **C14.** Let `g` be strictly increasing on the values that the objective can return (which is
more general than strictly increasing everywhere), and map NaN to NaN and numbers to numbers. Two
runs with the same options, seed and environment, one with the objective `f` and one with `g ∘ f`,
call the objective on the same points with the same results (transformed by `g`) and have, after
the same number of `next` calls, the same mean, step size, covariance matrix, generation and
evaluation paths (the whole search state). -/
theorem c14_ranking [OneZero F] {env : Env n F R} {w : World n F} {obj obj' : Obj n F} {o : Options n F}
    {g : F → F} {c0 c0' c c' : CMAES n F R} {t t' : List (NextCall n F)}
    (hg : ∀ l x l' x', Flt.lt (obj.f l x) (obj.f l' x') = true →
      Flt.lt (g (obj.f l x)) (g (obj.f l' x')) = true)
    (hnan : ∀ l x, Flt.isNaN (g (obj.f l x)) = Flt.isNaN (obj.f l x))
    (hobj : Transformed g obj.f obj'.f) (hlog : obj'.log = mapCalls g obj.log)
    (h0 : CMAES.new env w obj o = .ok c0) (h0' : CMAES.new env w obj' o = .ok c0')
    (h : Exec env c0 t c) (h' : Exec env c0' t' c')
    (hk : t'.map (fun s => s.kind) = t.map fun s => s.kind) :
    c'.state = c.state ∧ c'.functionEvals = c.functionEvals ∧
      t'.map (fun s => s.calls) = t.map fun s => mapCalls g s.calls := by
  refine c14_order (fun l x l' x' => ⟨hg l x l' x', fun h1 => ?_⟩) hnan hobj hlog h0 h0' h h' hk
  obtain ⟨n1, n2, h1⟩ := FltLaws.lt_iff.mp h1
  rw [hnan] at n1 n2
  rcases lt_trichotomy (FltLaws.val (obj.f l x)) (FltLaws.val (obj.f l' x')) with h2 | h2 | h2
  · exact FltLaws.lt_iff.mpr ⟨n1, n2, h2⟩
  · rw [OneZero.val_inj n1 n2 h2] at h1
    exact absurd h1 (lt_irrefl _)
  · have := (FltLaws.lt_iff.mp (hg l' x' l x (FltLaws.lt_iff.mpr ⟨n2, n1, h2⟩))).2.2
    exact absurd h1 (not_lt.mpr this.le)

/-! ### C15 -/

/-- Two `CMAES` that differ at most in plotting and printing. -/
structure SameRun (c c' : CMAES n F R) : Prop where
  sampler : c'.sampler = c.sampler
  parameters : c'.parameters = c.parameters
  state : c'.state = c.state
  history : c'.history = c.history
  timeCreated : c'.timeCreated = c.timeCreated
  steps : c'.world.steps = c.world.steps
  clockReads : c'.world.clockReads = c.world.clockReads

theorem next_sameRun {env : Env n F R} {kind : EvalKind} {c d c' d' : CMAES n F R}
    {r r' : Option (TerminationData n F)} (hs : SameRun c c')
    (h : c.next env kind = .ok (d, r)) (h' : c'.next env kind = .ok (d', r')) :
    SameRun d d' ∧ r' = r := by
  obtain ⟨res, h1, h2, h3, _, h4, h5⟩ := next_core h
  obtain ⟨res', h1', h2', h3', _, h4', h5'⟩ := next_core h'
  rw [hs.sampler, hs.steps, hs.state, hs.parameters, h1] at h1'
  simp only [Outcome.ok.injEq, Prod.mk.injEq] at h1'
  obtain ⟨rfl, hsam⟩ := h1'
  have hp : d'.parameters = d.parameters := by rw [h2, h2', hs.parameters]
  have ht : d'.timeCreated = d.timeCreated := by rw [h4, h4', hs.timeCreated]
  have hst : d'.world.steps = d.world.steps := by rw [h3, h3', hs.steps]
  have hdata : ∀ l, d'.history = d.history → d'.state = d.state →
      d'.terminationData l = d.terminationData l := by
    intro l e1 e2; unfold CMAES.terminationData; rw [e1, e2]
  rcases h5 with ⟨rfl, a1, a2, a3, a4⟩ | ⟨inds, b, rfl, a1, a2, a3, a4⟩
  · rcases h5' with ⟨_, b1, b2, b3, b4⟩ | ⟨_, _, hc, _⟩
    · have e1 : d'.history = d.history := by rw [b2, a2, hs.history]
      have e2 : d'.state = d.state := by rw [b1, a1, hs.state]
      exact ⟨⟨hsam.symm, hp, e2, e1, ht, hst, by rw [b3, a3, hs.clockReads]⟩,
        by rw [b4, a4, hdata _ e1 e2]⟩
    · simp at hc
  · rcases h5' with ⟨hc, _⟩ | ⟨inds', b', hc, b1, b2, b3, b4⟩
    · simp at hc
    · simp only [Option.some.injEq] at hc
      subst hc
      rw [hs.history, hs.parameters, a1] at b1
      injection b1 with b1
      rw [hs.state, hs.steps, hs.parameters, ← hsam, a2] at b2
      simp only [Outcome.ok.injEq, Prod.mk.injEq] at b2
      obtain ⟨b2, rfl⟩ := b2
      cases b with
      | false =>
        obtain ⟨a5, a6⟩ := a3 rfl
        obtain ⟨b5, b6⟩ := b3 rfl
        exact ⟨⟨hsam.symm, hp, b2.symm, b1.symm, ht, hst, by rw [b6, a6, hs.clockReads]⟩,
          by rw [b5, a5, hdata _ b1.symm b2.symm]⟩
      | true =>
        obtain ⟨a5, rs, a6, a7⟩ := a4 rfl
        obtain ⟨b5, rs', b6, b7⟩ := b4 rfl
        have hci : ∀ e, checkInput d' e inds = checkInput d e inds := by
          intro e; unfold checkInput; rw [← hsam, hp, ← b1, ← b2]
        rw [hs.parameters, hs.clockReads, hs.timeCreated, hci, a6] at b6
        injection b6 with b6
        subst b6
        exact ⟨⟨hsam.symm, hp, b2.symm, b1.symm, ht, hst,
          by rw [b5, a5, hs.clockReads, hs.parameters]⟩,
          by rw [b7, a7, hdata _ b1.symm b2.symm]⟩

theorem quiet_clockReads {env : Env n F R} {op : Op} {c c' : CMAES n F R}
    {r : Option (TerminationData n F)} (hq : op.Quiet) (h : c.apply env op = .ok (c', r)) :
    c'.world.clockReads = c.world.clockReads := by
  cases op with
  | next _ => exact hq.elim
  | run _ => exact hq.elim
  | addPlotPoint =>
    simp only [CMAES.apply, Outcome.ok.injEq, Prod.mk.injEq] at h
    rw [← h.1]; rfl
  | clearPlot =>
    simp only [CMAES.apply, CMAES.clearPlot, Outcome.bind_eq_ok, Outcome.ok.injEq,
      Prod.mk.injEq] at h
    obtain ⟨c1, h1, rfl, rfl⟩ := h
    split at h1
    · injection h1 with h1; rw [h1]
    · simp only [Outcome.bind_eq_ok, Outcome.ok.injEq] at h1
      obtain ⟨p, _, rfl⟩ := h1
      rfl
  | printInitialInfo =>
    simp only [CMAES.apply, Outcome.ok.injEq, Prod.mk.injEq] at h
    rw [← h.1]; rfl
  | printInfo =>
    simp only [CMAES.apply, Outcome.ok.injEq, Prod.mk.injEq] at h
    rw [← h.1]; rfl
  | printRunInfo k =>
    simp only [CMAES.apply, Outcome.ok.injEq, Prod.mk.injEq] at h
    rw [← h.1]; rfl
  | printFinalInfo rs =>
    simp only [CMAES.apply, Outcome.ok.injEq, Prod.mk.injEq] at h
    rw [← h.1]
    unfold CMAES.printFinalInfo
    by_cases hne : c.sampler.functionEvals ≠ c.lastPrintEvals
    · rw [if_pos hne]; rfl
    · rw [if_neg hne]; rfl

theorem Exec.nil_sameRun {env : Env n F R} {c c' : CMAES n F R} (h : Exec env c [] c') :
    SameRun c c' := by
  generalize ht : ([] : List (NextCall n F)) = t at h
  induction h with
  | refl => exact ⟨rfl, rfl, rfl, rfl, rfl, rfl, rfl⟩
  | next => simp at ht
  | quiet _ hq ha ih =>
    have h1 := ih ht
    have h2 := (quiet_sameSearch hq ha).1
    exact ⟨h2.sampler.trans h1.sampler, h2.parameters.trans h1.parameters,
      h2.state.trans h1.state, h2.history.trans h1.history, h2.timeCreated.trans h1.timeCreated,
      h2.steps.trans h1.steps, (quiet_clockReads hq ha).trans h1.clockReads⟩

theorem SameRun.symm {a b : CMAES n F R} (h : SameRun a b) : SameRun b a :=
  ⟨h.1.symm, h.2.symm, h.3.symm, h.4.symm, h.5.symm, h.6.symm, h.7.symm⟩
theorem SameRun.trans {a b c : CMAES n F R} (h : SameRun a b) (h' : SameRun b c) : SameRun a c :=
  ⟨h'.1.trans h.1, h'.2.trans h.2, h'.3.trans h.3, h'.4.trans h.4, h'.5.trans h.5, h'.6.trans h.6,
    h'.7.trans h.7⟩

theorem exec_sameRun {env : Env n F R} {c0 c0' c c' : CMAES n F R} {t t' : List (NextCall n F)}
    (hs : SameRun c0 c0') (h : Exec env c0 t c) (h' : Exec env c0' t' c')
    (hk : t'.map (fun s => s.kind) = t.map fun s => s.kind) : SameRun c c' ∧ t' = t := by
  induction t using List.reverseRecOn generalizing t' c c' with
  | nil =>
    simp only [List.map_nil, List.map_eq_nil_iff] at hk
    subst hk
    exact ⟨(h.nil_sameRun.symm.trans hs).trans h'.nil_sameRun, rfl⟩
  | append_singleton t s ih =>
    cases t' using List.reverseRecOn with
    | nil => simp at hk
    | append_singleton t' s' =>
      simp only [List.map_append, List.map_cons, List.map_nil] at hk
      obtain ⟨hk1, hk2⟩ := List.append_inj' hk rfl
      simp only [List.cons.injEq, and_true] at hk2
      obtain ⟨c1, c2, h1, h2, h3, h4⟩ := h.last_next
      obtain ⟨c1', c2', h1', h2', h3', h4'⟩ := h'.last_next
      obtain ⟨hs1, rfl⟩ := ih h1 h1' hk1
      rw [hk2] at h2'
      obtain ⟨hs2, hr⟩ := next_sameRun hs1 h2 h2'
      rw [hs2.sampler, h3, hs1.sampler] at h3'
      have hcalls := List.append_cancel_left h3'
      refine ⟨(h4.nil_sameRun.symm.trans hs2).trans h4'.nil_sameRun, ?_⟩
      cases s; cases s'
      simp only at hk2 hr hcalls
      rw [hk2, hr, hcalls]

/-- Runs that differ in plotting and printing only. -/
theorem sameRun_of_plotting {env : Env n F R} {w w' : World n F} {obj : Obj n F}
    {o : Options n F} {po : Option PlotOptions} {pg : Option Nat} {c0 c0' c c' : CMAES n F R}
    {t t' : List (NextCall n F)}
    (hw : w'.steps = w.steps ∧ w'.clockReads = w.clockReads)
    (h0 : CMAES.new env w obj o = .ok c0)
    (h0' : CMAES.new env w' obj { o with plotOptions := po, printGapEvals := pg } = .ok c0')
    (h : Exec env c0 t c) (h' : Exec env c0' t' c')
    (hk : t'.map (fun s => s.kind) = t.map fun s => s.kind) : SameRun c c' ∧ t' = t := by
  obtain ⟨_, rfl⟩ := new_eq_ok h0
  obtain ⟨_, rfl⟩ := new_eq_ok h0'
  obtain ⟨a1, a2, a3, a4, _, a5, a6, a7, _⟩ := create_search env w obj o
  obtain ⟨b1, b2, b3, b4, _, b5, b6, b7, _⟩ :=
    create_search env w' obj { o with plotOptions := po, printGapEvals := pg }
  have hs : SameRun (CMAES.create env w obj o)
      (CMAES.create env w' obj { o with plotOptions := po, printGapEvals := pg }) :=
    ⟨by rw [a1, b1], by rw [a2, b2]; rfl, by rw [a3, b3], by rw [a4, b4],
      by rw [a5, b5, hw.2], by rw [a7, b7, hw.1], by rw [a6, b6, hw.2]⟩
  exact exec_sameRun hs h h' hk

/-- **C15.** Two runs whose options differ at most in plotting and printing, with the same
objective and environment, and with any plot and print operations between the `next` calls: after
the same `next` calls they have made the same objective calls with the same values, returned the
same termination data each time, and have the same search state, history, counters and generator
state. -/
theorem c15_noninterference {env : Env n F R} {w w' : World n F} {obj : Obj n F}
    {o : Options n F} {po : Option PlotOptions} {pg : Option Nat} {c0 c0' c c' : CMAES n F R}
    {t t' : List (NextCall n F)}
    (hw : w'.steps = w.steps ∧ w'.clockReads = w.clockReads)
    (h0 : CMAES.new env w obj o = .ok c0)
    (h0' : CMAES.new env w' obj { o with plotOptions := po, printGapEvals := pg } = .ok c0')
    (h : Exec env c0 t c) (h' : Exec env c0' t' c')
    (hk : t'.map (fun s => s.kind) = t.map fun s => s.kind) :
    t' = t ∧ c'.sampler = c.sampler ∧ c'.state = c.state ∧ c'.history = c.history ∧
      c'.parameters = c.parameters := by
  obtain ⟨h1, h2⟩ := sameRun_of_plotting hw h0 h0' h h' hk
  exact ⟨h2, h1.sampler, h1.state, h1.history, h1.parameters⟩

/-- **C15, `run`.** If `run` ends in two such runs, it ends after the same number of generations
with the same data. -/
theorem c15_run {env : Env n F R} {w w' : World n F} {obj : Obj n F}
    {o : Options n F} {po : Option PlotOptions} {pg : Option Nat} {c0 c0' c c' d d' : CMAES n F R}
    {t t' : List (NextCall n F)} {kind : EvalKind} {x x' : TerminationData n F}
    (hw : w'.steps = w.steps ∧ w'.clockReads = w.clockReads)
    (h0 : CMAES.new env w obj o = .ok c0)
    (h0' : CMAES.new env w' obj { o with plotOptions := po, printGapEvals := pg } = .ok c0')
    (he : Exec env c0 t c) (he' : Exec env c0' t' c')
    (hk : t'.map (fun s => s.kind) = t.map fun s => s.kind)
    (h : c.run env kind = .ok (d, x)) (h' : c'.run env kind = .ok (d', x')) :
    x' = x ∧ d'.sampler = d.sampler ∧ d'.state = d.state ∧ d'.history = d.history := by
  have hs := (sameRun_of_plotting hw h0 h0' he he' hk).1
  have key : ∀ fuel {c c' d d' : CMAES n F R} {x x' : TerminationData n F}, SameRun c c' →
      c.runLoop env kind fuel = .ok (d, x) → c'.runLoop env kind fuel = .ok (d', x') →
      SameRun d d' ∧ x' = x := by
    intro fuel
    induction fuel with
    | zero => intro c c' d d' x x' _ h; simp [CMAES.runLoop] at h
    | succ fuel ih =>
      intro c c' d d' x x' hs h h'
      simp only [CMAES.runLoop, Outcome.bind_eq_ok] at h h'
      obtain ⟨⟨e, r⟩, h1, h2⟩ := h
      obtain ⟨⟨e', r'⟩, h1', h2'⟩ := h'
      obtain ⟨hs1, rfl⟩ := next_sameRun hs h1 h1'
      cases r' with
      | none => exact ih hs1 h2 h2'
      | some y =>
        simp only [Outcome.ok.injEq, Prod.mk.injEq] at h2 h2'
        obtain ⟨rfl, rfl⟩ := h2
        obtain ⟨rfl, rfl⟩ := h2'
        exact ⟨hs1, rfl⟩
  simp only [CMAES.run, Outcome.bind_eq_ok] at h h'
  obtain ⟨⟨e, y⟩, h1, h2⟩ := h
  obtain ⟨⟨e', y'⟩, h1', h2'⟩ := h'
  obtain ⟨hs1, rfl⟩ := key _ hs h1 h1'
  simp only [Outcome.ok.injEq, Prod.mk.injEq] at h2 h2'
  obtain ⟨rfl, rfl⟩ := h2
  obtain ⟨rfl, rfl⟩ := h2'
  have e1 := (runInternal_exec (env := env) e y').nil_sameRun
  have e2 := (runInternal_exec (env := env) e' y').nil_sameRun
  have := (e1.symm.trans hs1).trans e2
  exact ⟨rfl, this.sampler, this.state, this.history⟩

/-! ### C16 -/

/-- **C16, report.** The reported seed is the configured one, or the random one. -/
theorem c16_reported {env : Env n F R} {w : World n F} {obj : Obj n F} {o : Options n F}
    {c0 c : CMAES n F R} {t : List (NextCall n F)} (h0 : CMAES.new env w obj o = .ok c0)
    (h : Exec env c0 t c) :
    (∀ s, o.seed = some s → c.parameters.seed = s) ∧
    (o.seed = none → c.parameters.seed = env.randomSeed) := by
  obtain ⟨gs, i, _⟩ := fresh_inv ⟨w, c0, h0, h⟩
  have hp : c.parameters.seed = o.seed.getD env.randomSeed := by
    rw [i.parameters]; rfl
  exact ⟨fun s hs => by rw [hp, hs]; rfl, fun hs => by rw [hp, hs]; rfl⟩

/-- **C16.** Building again with the reported seed gives, whatever the random source now returns,
the identical run: the same `CMAES` initially and the same outcome of every sequence of user
calls. -/
theorem c16_reproducible {env : Env n F R} {w : World n F} {obj : Obj n F} {o : Options n F}
    {c0 : CMAES n F R} (h0 : CMAES.new env w obj o = .ok c0) (random : Nat) :
    CMAES.new { env with randomSeed := random } w obj { o with seed := some c0.parameters.seed } =
      .ok c0 ∧
    ∀ ops, c0.applyAll { env with randomSeed := random } ops = c0.applyAll env ops := by
  obtain ⟨hv, rfl⟩ := new_eq_ok h0
  constructor
  · have hv' : ∀ x, CMAES.validate { o with seed := x } = none := fun _ => hv
    unfold CMAES.new
    rw [hv', (create_search env w obj o).2.1]
    rfl
  · have hloop : ∀ kind fuel (c : CMAES n F R),
        c.runLoop { env with randomSeed := random } kind fuel = c.runLoop env kind fuel := by
      intro kind fuel
      induction fuel with
      | zero => intro c; rfl
      | succ fuel ih =>
        intro c
        simp only [CMAES.runLoop, ih]
        rfl
    have happ : ∀ op (c : CMAES n F R),
        c.apply { env with randomSeed := random } op = c.apply env op := by
      intro op c
      cases op with
      | run k => simp only [CMAES.apply, CMAES.run, hloop]
      | _ => rfl
    intro ops
    generalize CMAES.create env w obj o = c
    induction ops generalizing c with
    | nil => rfl
    | cons op ops ih => simp only [CMAES.applyAll, happ, ih]

section Examples
open Witness

/-- An objective with the values 1, 2 and 4. -/
def threeValues : Obj 2 F64 :=
  { f := fun _ x => if Flt.lt (x 0) 0 then 1 else if Flt.lt (x 1) 0 then 2 else 4, log := [] }

/-- The same with the values 10, 30 and 31. -/
def threeOtherValues : Obj 2 F64 :=
  { f := fun _ x => if Flt.lt (x 0) 0 then 10 else if Flt.lt (x 1) 0 then 30 else 31, log := [] }

/-- The transformation that takes one to the other. -/
def transformation (v : F64) : F64 := if Flt.feq v 1 then 10 else if Flt.feq v 2 then 30 else 31

/-- C14: the hypotheses are met by two runs with different values. -/
example : (∀ l x l' x', Flt.lt (threeValues.f l x) (threeValues.f l' x') = true →
      Flt.lt (transformation (threeValues.f l x)) (transformation (threeValues.f l' x')) = true) ∧
    (∀ l x, Flt.isNaN (transformation (threeValues.f l x)) = Flt.isNaN (threeValues.f l x)) ∧
    Transformed transformation threeValues.f threeOtherValues.f ∧
    ((CMAES.create (wenv 2) World.init threeValues opts).nexts (wenv 2) [.seq, .par]).check
      (fun x => x.1.generation == 2) = true ∧
    ((CMAES.create (wenv 2) World.init threeOtherValues opts).nexts (wenv 2) [.seq, .par]).check
      (fun x => x.1.generation == 2) = true := by
  have h : ∀ x : Vec 2 F64, ∀ l, (threeValues.f l x = 1 ∨ threeValues.f l x = 2 ∨
      threeValues.f l x = 4) := by
    intro x l
    simp only [threeValues]
    by_cases h1 : Flt.lt (x 0) 0 = true
    · simp [h1]
    · by_cases h2 : Flt.lt (x 1) 0 = true
      · simp [h1, h2]
      · simp [h1, h2]
  refine ⟨?_, ?_, ?_, by decide +kernel, by decide +kernel⟩
  · intro l x l' x'
    rcases h x l with e | e | e <;> rcases h x' l' with e' | e' | e' <;> rw [e, e'] <;>
      decide +kernel
  · intro l x
    rcases h x l with e | e | e <;> rw [e] <;> decide +kernel
  · intro l x
    simp only [threeValues, threeOtherValues]
    by_cases h1 : Flt.lt (x 0) 0 = true
    · simp only [h1, if_true]; decide +kernel
    · by_cases h2 : Flt.lt (x 1) 0 = true
      · simp only [h1, h2, if_true]; decide +kernel
      · simp only [h1, h2]; decide +kernel

/-- C15: with plotting and printing enabled the runs complete. -/
example : ((CMAES.create (wenv 2) World.init sphere
    { opts with plotOptions := some ⟨0, false⟩, printGapEvals := some 0 }).applyAll (wenv 2)
      [.next .seq, .addPlotPoint, .clearPlot, .next .par, .printInfo]).check
      (fun x => x.1.generation == 2 && x.1.world.out.length == 4) = true := by decide +kernel

/-- C16: a run without a configured seed. -/
example : CMAES.validate { opts with seed := none } = none ∧
    (CMAES.create (wenv 2) World.init sphere { opts with seed := none }).parameters.seed = 5 := by
  decide +kernel

end Examples

end Cmaes
