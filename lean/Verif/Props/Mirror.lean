import Verif.Lemmas.Mirror
import Verif.Props.Invariance

/-!
# C13: maximizing `f` is minimizing `-f`
-/

set_option linter.unusedSectionVars false

namespace Cmaes
variable {n : Nat} {F R : Type} [Flt F] [FltLaws F]
open FltLaws

/-- `c'` minimizes `-f` and is where `c`, which maximizes `f`, is. -/
structure MirrorSim (c c' : CMAES n F R) : Prop where
  sampler : SamplerSim (fun v => -v) c.sampler c'.sampler
  state : c'.state = c.state
  mode : c.parameters.mode = .maximize
  parameters : c'.parameters = c.parameters.negated
  history : c.history.Mirrors c'.history
  timeCreated : c'.timeCreated = c.timeCreated
  steps : c'.world.steps = c.world.steps
  clockReads : c'.world.clockReads = c.world.clockReads

theorem keySim_neg (f : List (Vec n F × F) → Vec n F → F) :
    KeySim f (fun v => -v) .maximize .minimize := by
  refine ⟨fun _ _ => isNaN_neg _, fun l x l' x' _ _ => ?_⟩
  simp only [Mode.key, val_neg]

theorem MirrorSim.data {d d' : CMAES n F R} (e1 : d.history.Mirrors d'.history)
    (e2 : d'.state = d.state) (l : List TerminationReason) :
    d'.terminationData l = (d.terminationData l).negated := by
  unfold CMAES.terminationData TerminationData.negated
  simp only [e1.currentBest, e1.overallBest, e2]

/-- The condition on medians, for one history. -/
def MedianOk (env : Env n F R) (h : History n F) : Prop :=
  ∀ l l', (∃ x ∈ l, Flt.isNaN x = true) → l ⊆ h.bestValues ∨ l ⊆ h.medianValues →
    List.Forall₂ Opposite l l' → Outcome.Rel Opposite (env.medianNaN l) (env.medianNaN l')

theorem next_mirror {env : Env n F R} {kind : EvalKind} {c d c' d' : CMAES n F R}
    {r r' : Option (TerminationData n F)} (hs : MirrorSim c c')
    (h : c.next env kind = .ok (d, r)) (h' : c'.next env kind = .ok (d', r'))
    (hm : MedianOk env d.history) :
    MirrorSim d d' ∧ r' = r.map TerminationData.negated := by
  obtain ⟨res, h1, h2, h3, _, h4, h5⟩ := next_core h
  obtain ⟨res', h1', h2', h3', _, h4', h5'⟩ := next_core h'
  have hmode' : c'.parameters.mode = .minimize := by rw [hs.parameters]; rfl
  have hrel := sample_sim (env := env) (env' := env) rfl rfl (kind := kind)
    (sched := env.sched c.world.steps) (T := c.state.cov.transform) (mean := c.state.mean)
    (sigma := c.state.sigma) (keySim_neg c.sampler.obj.f) hs.sampler
  rw [hs.state, hs.steps, hmode'] at h1'
  rw [hs.mode] at h1
  rw [h1, h1'] at hrel
  obtain ⟨hres, hsam⟩ := hrel.ok_ok
  simp only at hres hsam
  have hp : d'.parameters = d.parameters.negated := by rw [h2, h2', hs.parameters]
  have hmode : d.parameters.mode = .maximize := by rw [h2, hs.mode]
  have ht : d'.timeCreated = d.timeCreated := by rw [h4, h4', hs.timeCreated]
  have hst : d'.world.steps = d.world.steps := by rw [h3, h3', hs.steps]
  have hmt : c'.parameters.termination.maxTime = c.parameters.termination.maxTime := by
    rw [hs.parameters]; rfl
  rcases h5 with ⟨rfl, a1, a2, a3, a4⟩ | ⟨inds, b, rfl, a1, a2, a3, a4⟩
  · rcases h5' with ⟨_, b1, b2, b3, b4⟩ | ⟨_, _, hc, _⟩
    · have e1 : d.history.Mirrors d'.history := by rw [b2, a2]; exact hs.history
      have e2 : d'.state = d.state := by rw [b1, a1, hs.state]
      refine ⟨⟨hsam, e2, hmode, hp, e1, ht, hst, by rw [b3, a3, hs.clockReads]⟩, ?_⟩
      rw [b4, a4, MirrorSim.data e1 e2]; rfl
    · simp [hc] at hres
  · rcases h5' with ⟨hc, _⟩ | ⟨inds', b', rfl, b1, b2, b3, b4⟩
    · simp [hc] at hres
    · simp only [Option.map_some, Option.some.injEq] at hres
      subst hres
      have e1 : d.history.Mirrors d'.history := by
        have hu := hs.history.update inds
        rw [hmode'] at b1
        rw [hs.mode] at a1
        rw [a1, b1] at hu
        exact hu.ok_ok
      rw [hs.state, hs.steps, hsam.functionEvals,
        update_congr (map_step_mapPt (fun v => -v) inds)
          ⟨_, _, c.parameters.seed, by rw [hs.parameters]; rfl⟩, a2] at b2
      simp only [Outcome.ok.injEq, Prod.mk.injEq] at b2
      obtain ⟨b2, rfl⟩ := b2
      have e2 : d'.state = d.state := b2.symm
      cases b with
      | false =>
        obtain ⟨a5, a6⟩ := a3 rfl
        obtain ⟨b5, b6⟩ := b3 rfl
        refine ⟨⟨hsam, e2, hmode, hp, e1, ht, hst, by rw [b6, a6, hs.clockReads]⟩, ?_⟩
        rw [b5, a5, MirrorSim.data e1 e2]; rfl
      | true =>
        obtain ⟨a5, rs, a6, a7⟩ := a4 rfl
        obtain ⟨b5, rs', b6, b7⟩ := b4 rfl
        rw [hmt] at b5 b6
        have hci : ∀ e, checkInput d' e (inds.map (mapPt fun v => -v)) =
            { checkInput d e inds with
              parameters := d.parameters.negated
              history := d'.history
              individuals := inds.map (mapPt fun v => -v) } := by
          intro e; unfold checkInput; rw [hsam.functionEvals, hp, e2]
        rw [hci, hs.clockReads, hs.timeCreated] at b6
        have hcheck := check_neg (m := env.medianNaN) (t := checkInput d
          (if c.parameters.termination.maxTime.isSome then
                env.clock c.world.clockReads - c.timeCreated else 0) inds) hmode e1 hm
        have b6' := hcheck.symm.trans b6
        rw [a6] at b6'
        injection b6' with b6'
        subst b6'
        refine ⟨⟨hsam, e2, hmode, hp, e1, ht, hst, by rw [b5, a5, hs.clockReads]⟩, ?_⟩
        rw [b7, a7, MirrorSim.data e1 e2]
        cases rs.isEmpty <;> rfl

theorem MirrorSim.of_sameRun {c c' d d' : CMAES n F R} (h : MirrorSim c c') (s : SameRun c d)
    (s' : SameRun c' d') : MirrorSim d d' :=
  ⟨by rw [s.sampler, s'.sampler]; exact h.sampler, by rw [s.state, s'.state, h.state],
    by rw [s.parameters, h.mode], by rw [s.parameters, s'.parameters, h.parameters],
    by rw [s.history, s'.history]; exact h.history, by rw [s.timeCreated, s'.timeCreated, h.timeCreated],
    by rw [s.steps, s'.steps, h.steps], by rw [s.clockReads, s'.clockReads, h.clockReads]⟩

theorem exec_mirror {env : Env n F R} {c0 c0' c c' : CMAES n F R} {t t' : List (NextCall n F)}
    (hs : MirrorSim c0 c0')
    (hm : ∀ t d, Exec env c0 t d → MedianOk env d.history)
    (h : Exec env c0 t c) (h' : Exec env c0' t' c')
    (hk : t'.map (fun s => s.kind) = t.map fun s => s.kind) :
    MirrorSim c c' ∧ t' = t.map NextCall.negated := by
  induction t using List.reverseRecOn generalizing t' c c' with
  | nil =>
    simp only [List.map_nil, List.map_eq_nil_iff] at hk
    subst hk
    exact ⟨hs.of_sameRun h.nil_sameRun h'.nil_sameRun, rfl⟩
  | append_singleton t s ih =>
    cases t' using List.reverseRecOn with
    | nil => simp at hk
    | append_singleton t' s' =>
      simp only [List.map_append, List.map_cons, List.map_nil] at hk
      obtain ⟨hk1, hk2⟩ := List.append_inj' hk rfl
      simp only [List.cons.injEq, and_true] at hk2
      obtain ⟨c1, c2, h1, h2, h3, h4⟩ := h.last_next
      obtain ⟨c1', c2', h1', h2', h3', h4'⟩ := h'.last_next
      obtain ⟨hs1, rfl⟩ := ih h1 h1' hk1
      rw [hk2] at h2'
      obtain ⟨hs2, hr⟩ := next_mirror hs1 h2 h2' (hm _ _ (.next h1 h2 h3))
      rw [hs2.sampler.obj.log, h3, hs1.sampler.obj.log, mapCalls_append] at h3'
      have hcalls := List.append_cancel_left h3'
      refine ⟨hs2.of_sameRun h4.nil_sameRun h4'.nil_sameRun, ?_⟩
      rw [List.map_append]
      congr 1
      cases s; cases s'
      simp only at hk2 hr hcalls
      simp only [List.map_cons, List.map_nil, NextCall.negated, hk2, hr, hcalls]

theorem create_mirror {env : Env n F R} {w w' : World n F} {obj obj' : Obj n F} {o : Options n F}
    (hmax : o.mode = .maximize)
    (hobj : Transformed (fun v => -v) obj.f obj'.f) (hlog : obj'.log = mapCalls (fun v => -v) obj.log)
    (hw : w'.steps = w.steps ∧ w'.clockReads = w.clockReads) :
    MirrorSim (CMAES.create env w obj o) (CMAES.create env w' obj' o.mirrored) := by
  obtain ⟨a1, a2, a3, a4, _, a5, a6, a7, _⟩ := create_search env w obj o
  obtain ⟨b1, b2, b3, b4, _, b5, b6, b7, _⟩ := create_search env w' obj' o.mirrored
  refine ⟨?_, by rw [a3, b3]; rfl, by rw [a2]; exact hmax, by rw [a2, b2]; rfl,
    by rw [a4, b4]; exact .new, by rw [a5, b5, hw.2], by rw [a7, b7, hw.1], by rw [a6, b6, hw.2]⟩
  rw [a1, b1]
  exact ⟨rfl, rfl, rfl, rfl, rfl, hobj, hlog⟩

/-- The best values in the history are numbers. -/
theorem bestValues_noNaN {env : Env n F R} {obj : Obj n F} {o : Options n F}
    {t : List (NextCall n F)} {c : CMAES n F R} (h : History.Of env obj o t c) :
    ∀ x ∈ c.history.bestValues, Flt.isNaN x = false := by
  obtain ⟨gs, i, _⟩ := fresh_inv h
  obtain ⟨_, hb, _⟩ := after_values i.history
  intro x hx
  rw [hb] at hx
  have hx := List.mem_reverse.mp (List.mem_of_mem_take hx)
  obtain ⟨g, hg, hx⟩ := List.mem_filterMap.mp hx
  obtain ⟨g', hg', rfl⟩ := List.mem_map.mp hg
  unfold bestOf at hx
  cases hh : g'.sorted with
  | nil => simp [hh] at hx
  | cons p ps =>
    simp only [hh, List.head?_cons, Option.map_some, Option.some.injEq] at hx
    rw [← hx]
    exact (i.sampled g' hg').inds_noNaN p (by simp [hh])

/-- A NaN median comes from infinite values of both signs. -/
theorem medianValue_noNaN {inds : List (EvaluatedPoint n F)} {m : F}
    (h : medianValue inds = .ok m) (hn : ∀ p ∈ inds, Flt.isNaN p.value = false)
    (hi : (∀ p ∈ inds, val p.value ≠ ⊤) ∨ (∀ p ∈ inds, val p.value ≠ ⊥)) :
    Flt.isNaN m = false := by
  unfold medianValue at h
  split at h
  · split at h
    · simp at h
    · simp only [Outcome.bind_eq_ok] at h
      obtain ⟨a, ha, b, hb, h⟩ := h
      injection h with h
      have ha' : a ∈ inds := by
        cases hx : inds[inds.length / 2 - 1]? with
        | none => simp [hx, Outcome.unwrap] at ha
        | some y =>
          simp only [hx, Outcome.unwrap_some, Outcome.ok.injEq] at ha
          exact ha ▸ List.mem_of_getElem? hx
      have hb' : b ∈ inds := by
        cases hx : inds[inds.length / 2]? with
        | none => simp [hx, Outcome.unwrap] at hb
        | some y =>
          simp only [hx, Outcome.unwrap_some, Outcome.ok.injEq] at hb
          exact hb ▸ List.mem_of_getElem? hx
      rw [← h, isNaN_half, ← Bool.not_eq_true, isNaN_add]
      rcases hi with hi | hi
      · simp [hn a ha', hn b hb', hi a ha', hi b hb']
      · simp [hn a ha', hn b hb', hi a ha', hi b hb']
  · simp only [Outcome.bind_eq_ok] at h
    obtain ⟨a, ha, h⟩ := h
    injection h with h
    have ha' : a ∈ inds := by
      cases hx : inds[inds.length / 2]? with
      | none => simp [hx, Outcome.unwrap] at ha
      | some y =>
        simp only [hx, Outcome.unwrap_some, Outcome.ok.injEq] at ha
        exact ha ▸ List.mem_of_getElem? hx
    exact h ▸ hn a ha'

/-- If the objective never returns `+inf`, or never `-inf`, the medians in the history are
numbers. -/
theorem medianValues_noNaN {env : Env n F R} {obj : Obj n F} {o : Options n F}
    {t : List (NextCall n F)} {c : CMAES n F R} (h : History.Of env obj o t c)
    (hi : (∀ l x, obj.f l x ≠ Flt.inf) ∨ (∀ l x, obj.f l x ≠ -Flt.inf)) :
    ∀ x ∈ c.history.medianValues, Flt.isNaN x = false := by
  obtain ⟨gs, i, _⟩ := fresh_inv h
  obtain ⟨_, _, hb, _⟩ := after_values i.history
  intro x hx
  rw [hb] at hx
  have hx := List.mem_reverse.mp (List.mem_of_mem_take hx)
  obtain ⟨g, hg, hx⟩ := List.mem_filterMap.mp hx
  obtain ⟨g', hg', rfl⟩ := List.mem_map.mp hg
  have hval : ∀ p ∈ g'.sorted, ∃ l y, p.value = obj.f l y := by
    intro p hp
    have h1 : p.call ∈ g'.call.calls :=
      (i.sampled g' hg').callsPerm.mem_iff.mpr (List.mem_map.mpr ⟨p, hp, rfl⟩)
    have h2 : g'.call ∈ t := by
      have : g'.call ∈ gs.map Gen.call := List.mem_map.mpr ⟨g', hg', rfl⟩
      rw [i.calls] at this
      exact List.mem_of_mem_filter this
    have h3 : p.call ∈ allCalls t := List.mem_flatMap.mpr ⟨g'.call, h2, h1⟩
    obtain ⟨l, y, hl⟩ := i.faithful.mem h3
    exact ⟨l, y, hl⟩
  unfold medianOf at hx
  cases hmv : medianValue g'.sorted with
  | panic p => simp [hmv] at hx
  | diverge => simp [hmv] at hx
  | ok m =>
    simp only [hmv, Option.some.injEq] at hx
    rw [← hx]
    refine medianValue_noNaN hmv (i.sampled g' hg').inds_noNaN ?_
    rcases hi with hi | hi
    · left; intro p hp hv
      obtain ⟨l, y, e⟩ := hval p hp
      refine hi l y (e ▸ val_inj_ne ((i.sampled g' hg').inds_noNaN p hp) isNaN_inf ?_ ?_)
      · rw [hv, val_inf]
      · rw [hv]; simp
    · right; intro p hp hv
      obtain ⟨l, y, e⟩ := hval p hp
      refine hi l y (e ▸ val_inj_ne ((i.sampled g' hg').inds_noNaN p hp) ?_ ?_ ?_)
      · rw [isNaN_neg, isNaN_inf]
      · rw [hv, val_neg, val_inf]; rfl
      · rw [hv]; simp

/-- What is needed of medians of data with a NaN (which `statrs` leaves unspecified): they are
mirrored if the data are, or they never occur because the objective does not return both infinities. -/
def MirroredMedians (env : Env n F R) (f : List (Vec n F × F) → Vec n F → F) : Prop :=
  (∀ l l', List.Forall₂ Opposite l l' →
    Outcome.Rel Opposite (env.medianNaN l) (env.medianNaN l')) ∨
  (∀ l x, f l x ≠ Flt.inf) ∨ (∀ l x, f l x ≠ -Flt.inf)

theorem MirroredMedians.use {env : Env n F R} {w : World n F} {obj : Obj n F} {o : Options n F}
    {c0 : CMAES n F R} (hmed : MirroredMedians env obj.f) (h0 : CMAES.new env w obj o = .ok c0) :
    ∀ t d, Exec env c0 t d → MedianOk env d.history := by
  intro t d he l l' hl hsub hll
  have ho : History.Of env obj o t d := ⟨w, c0, h0, he⟩
  rcases hmed with hmed | hmed
  · exact hmed l l' hll
  · exfalso
    obtain ⟨x, hx, hxn⟩ := hl
    rcases hsub with hsub | hsub
    · simp [bestValues_noNaN ho x (hsub hx)] at hxn
    · simp [medianValues_noNaN ho hmed x (hsub hx)] at hxn

section
variable {env : Env n F R} {w w' : World n F} {obj obj' : Obj n F} {o : Options n F}
  {c0 c0' c c' d d' : CMAES n F R} {t t' : List (NextCall n F)} {kind : EvalKind}
  {x x' : TerminationData n F}

/-- **C13.** Let one `CMAES` maximize `obj` with options `o`, and another minimize the objective
that returns the negated values, with the same options except that the function target is negated.
Let both be driven through the same sequence of `next`/`next_parallel` calls (with any plotting and
printing calls in between). Then every call visits the same points, sees negated values and returns
the same termination data with negated values (in particular the same reasons), and mean, step
size, covariance matrix, generation and evaluation counters agree. -/
theorem c13_mirror (hmax : o.mode = .maximize)
    (hobj : Transformed (fun v => -v) obj.f obj'.f) (hlog : obj'.log = mapCalls (fun v => -v) obj.log)
    (hw : w'.steps = w.steps ∧ w'.clockReads = w.clockReads)
    (hmed : MirroredMedians env obj.f)
    (h0 : CMAES.new env w obj o = .ok c0) (h0' : CMAES.new env w' obj' o.mirrored = .ok c0')
    (h : Exec env c0 t c) (h' : Exec env c0' t' c')
    (hk : t'.map (fun s => s.kind) = t.map fun s => s.kind) :
    t' = t.map NextCall.negated ∧ c'.mean = c.mean ∧ c'.sigma = c.sigma ∧
      c'.covarianceMatrix = c.covarianceMatrix ∧ c'.generation = c.generation ∧
      c'.functionEvals = c.functionEvals ∧
      c'.currentBestIndividual = c.currentBestIndividual.map Individual.negated ∧
      c'.overallBestIndividual = c.overallBestIndividual.map Individual.negated := by
  obtain ⟨_, e⟩ := new_eq_ok h0
  obtain ⟨_, e'⟩ := new_eq_ok h0'
  have hs : MirrorSim c0 c0' := by rw [e, e']; exact create_mirror hmax hobj hlog hw
  obtain ⟨h1, h2⟩ := exec_mirror hs (hmed.use h0) h h' hk
  refine ⟨h2, ?_, ?_, ?_, ?_, h1.sampler.functionEvals, ?_, ?_⟩
  · unfold CMAES.mean; rw [h1.state]
  · unfold CMAES.sigma; rw [h1.state]
  · unfold CMAES.covarianceMatrix; rw [h1.state]
  · unfold CMAES.generation; rw [h1.state]
  · exact h1.history.currentBest
  · exact h1.history.overallBest

/-- Running to the end. -/
theorem run_mirror (hmax : o.mode = .maximize)
    (hobj : Transformed (fun v => -v) obj.f obj'.f) (hlog : obj'.log = mapCalls (fun v => -v) obj.log)
    (hw : w'.steps = w.steps ∧ w'.clockReads = w.clockReads)
    (hmed : MirroredMedians env obj.f)
    (h0 : CMAES.new env w obj o = .ok c0) (h0' : CMAES.new env w' obj' o.mirrored = .ok c0')
    (he : Exec env c0 t c) (he' : Exec env c0' t' c')
    (hk : t'.map (fun s => s.kind) = t.map fun s => s.kind)
    (h : c.run env kind = .ok (d, x)) (h' : c'.run env kind = .ok (d', x')) :
    MirrorSim d d' ∧ x' = x.negated := by
  obtain ⟨_, e⟩ := new_eq_ok h0
  obtain ⟨_, e'⟩ := new_eq_ok h0'
  have hs0 : MirrorSim c0 c0' := by rw [e, e']; exact create_mirror hmax hobj hlog hw
  have hs := (exec_mirror hs0 (hmed.use h0) he he' hk).1
  have key : ∀ fuel {t : List (NextCall n F)} {c c' d d' : CMAES n F R} {x x' : TerminationData n F},
      Exec env c0 t c → MirrorSim c c' →
      c.runLoop env kind fuel = .ok (d, x) → c'.runLoop env kind fuel = .ok (d', x') →
      MirrorSim d d' ∧ x' = x.negated := by
    intro fuel
    induction fuel with
    | zero => intro t c c' d d' x x' _ _ h; simp [CMAES.runLoop] at h
    | succ fuel ih =>
      intro t c c' d d' x x' hx hs h h'
      simp only [CMAES.runLoop, Outcome.bind_eq_ok] at h h'
      obtain ⟨⟨e, r⟩, h1, h2⟩ := h
      obtain ⟨⟨e', r'⟩, h1', h2'⟩ := h'
      obtain ⟨calls, hl⟩ := next_log h1
      have hx' := Exec.next hx h1 hl
      obtain ⟨hs1, rfl⟩ := next_mirror hs h1 h1' (hmed.use h0 _ _ hx')
      cases r with
      | none => exact ih hx' hs1 h2 h2'
      | some y =>
        simp only [Option.map_some, Outcome.ok.injEq, Prod.mk.injEq] at h2 h2'
        obtain ⟨rfl, rfl⟩ := h2
        obtain ⟨rfl, rfl⟩ := h2'
        exact ⟨hs1, rfl⟩
  simp only [CMAES.run, Outcome.bind_eq_ok] at h h'
  obtain ⟨⟨e, y⟩, h1, h2⟩ := h
  obtain ⟨⟨e', y'⟩, h1', h2'⟩ := h'
  obtain ⟨hs1, rfl⟩ := key _ he hs h1 h1'
  simp only [Outcome.ok.injEq, Prod.mk.injEq] at h2 h2'
  obtain ⟨rfl, rfl⟩ := h2
  obtain ⟨rfl, rfl⟩ := h2'
  have e1 := (runInternal_exec (env := env) e y).nil_sameRun
  have e2 := (runInternal_exec (env := env) e' y.negated).nil_sameRun
  exact ⟨hs1.of_sameRun e1 e2, rfl⟩

/-- **C13, `run`.** If `run` ends in both, it ends with the same data up to the sign of the
values, after calls on the same points with negated values. -/
theorem c13_run (hmax : o.mode = .maximize)
    (hobj : Transformed (fun v => -v) obj.f obj'.f) (hlog : obj'.log = mapCalls (fun v => -v) obj.log)
    (hw : w'.steps = w.steps ∧ w'.clockReads = w.clockReads)
    (hmed : MirroredMedians env obj.f)
    (h0 : CMAES.new env w obj o = .ok c0) (h0' : CMAES.new env w' obj' o.mirrored = .ok c0')
    (he : Exec env c0 t c) (he' : Exec env c0' t' c')
    (hk : t'.map (fun s => s.kind) = t.map fun s => s.kind)
    (h : c.run env kind = .ok (d, x)) (h' : c'.run env kind = .ok (d', x')) :
    x' = x.negated ∧ d'.functionEvals = d.functionEvals ∧ d'.generation = d.generation ∧
      d'.intoObjectiveFunction.log = mapCalls (fun v => -v) d.intoObjectiveFunction.log := by
  obtain ⟨h1, h2⟩ := run_mirror hmax hobj hlog hw hmed h0 h0' he he' hk h h'
  refine ⟨h2, h1.sampler.functionEvals, ?_, h1.sampler.obj.log⟩
  unfold CMAES.generation; rw [h1.state]

end

section Examples
open Witness

/-- The negated sphere function. -/
def negSphere : Obj 2 F64 := { f := fun _ x => -(x 0 * x 0 + x 1 * x 1), log := [] }

theorem Witness.mirror_medians (f : List (Vec 2 F64 × F64) → Vec 2 F64 → F64) :
    MirroredMedians (wenv 2) f :=
  .inl fun _ _ _ => .ok (.inl rfl)

/-- C13: the hypotheses are met by a run with `f` and one with `-f`, also by `run`, which ends
with reaching the negated target. -/
example : Transformed (fun v => -v) negSphere.f sphere.f ∧
    ((CMAES.create (wenv 2) World.init negSphere { opts with mode := .maximize }).nexts
      (wenv 2) [.seq, .par]).check (fun x => x.1.generation == 2) = true ∧
    ((CMAES.create (wenv 2) World.init sphere
      (Options.mirrored { opts with mode := .maximize })).nexts
      (wenv 2) [.seq, .par]).check (fun x => x.1.generation == 2) = true := by
  refine ⟨fun l x => (flt_neg_neg _).symm, by decide +kernel, by decide +kernel⟩

example : ((CMAES.create (wenv 2) World.init negSphere
      { opts with mode := .maximize, funTarget := some (-3) }).run
      (wenv 2) .seq).check (fun x => x.2.reasons == [.funTarget]) = true ∧
    ((CMAES.create (wenv 2) World.init sphere
      (Options.mirrored { opts with mode := .maximize, funTarget := some (-3) })).run
      (wenv 2) .seq).check (fun x => x.2.reasons == [.funTarget]) = true := by
  refine ⟨by decide +kernel, by decide +kernel⟩

end Examples

end Cmaes
