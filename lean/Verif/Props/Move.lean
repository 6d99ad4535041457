import Verif.Lemmas.Move
import Verif.Float.XRLemmas
import Verif.Props.Invariance
import Verif.Props.NoPanic
import Verif.Lemmas.RealStep

/-!
# C40: moving and scaling the search space
-/

set_option linter.unusedSectionVars false

namespace Cmaes
variable {n : Nat} {F R : Type} [Flt F]

/-- `c'` is where `c` is, in the moved space. -/
structure MoveSim (S : Similarity n F) (c c' : CMAES n F R) : Prop where
  sampler : SamplerMove S.pt c.sampler c'.sampler
  state : c'.state = c.state.moved S
  parameters : c'.parameters = c.parameters.moved S
  history : c'.history = c.history.moved S.pt
  timeCreated : c'.timeCreated = c.timeCreated
  steps : c'.world.steps = c.world.steps
  clockReads : c'.world.clockReads = c.world.clockReads

variable {S : Similarity n F}

theorem MoveSim.data {d d' : CMAES n F R} (e1 : d'.history = d.history.moved S.pt)
    (e2 : d'.state = d.state.moved S) (l : List TerminationReason) :
    d'.terminationData l = (d.terminationData l).moved S.pt := by
  unfold CMAES.terminationData TerminationData.moved
  rw [e1, e2]
  rfl

theorem next_move {env : Env n F R} {kind : EvalKind} {c d c' d' : CMAES n F R}
    {r r' : Option (TerminationData n F)} (hs : MoveSim S c c')
    (h : c.next env kind = .ok (d, r)) (h' : c'.next env kind = .ok (d', r')) :
    MoveSim S d d' ∧ r' = r.map (TerminationData.moved S.pt) := by
  obtain ⟨res, h1, h2, h3, _, h4, h5⟩ := next_core h
  obtain ⟨res', h1', h2', h3', _, h4', h5'⟩ := next_core h'
  have hmode' : c'.parameters.mode = c.parameters.mode := by rw [hs.parameters]; rfl
  have hrel := sample_move (env := env) (kind := kind)
    (sched := env.sched c.world.steps) (T := c.state.cov.transform) (mean := c.state.mean)
    (sigma := c.state.sigma) (mean' := S.pt c.state.mean) (sigma' := S.sc c.state.sigma)
    (mode := c.parameters.mode) (fun y => S.toPoint y _ _) hs.sampler
  rw [hs.state, hs.steps, hmode'] at h1'
  have h1'' : c'.sampler.sample env kind (env.sched c.world.steps) c.state.cov.transform
      (S.pt c.state.mean) (S.sc c.state.sigma) c.parameters.mode = .ok (res', d'.sampler) := h1'
  rw [h1, h1''] at hrel
  obtain ⟨hres, hsam⟩ := hrel.ok_ok
  simp only at hres hsam
  have hp : d'.parameters = d.parameters.moved S := by rw [h2, h2', hs.parameters]
  have ht : d'.timeCreated = d.timeCreated := by rw [h4, h4', hs.timeCreated]
  have hst : d'.world.steps = d.world.steps := by rw [h3, h3', hs.steps]
  have hmt : c'.parameters.termination.maxTime = c.parameters.termination.maxTime := by
    rw [hs.parameters]; rfl
  rcases h5 with ⟨rfl, a1, a2, a3, a4⟩ | ⟨inds, b, rfl, a1, a2, a3, a4⟩
  · rcases h5' with ⟨_, b1, b2, b3, b4⟩ | ⟨_, _, hc, _⟩
    · have e1 : d'.history = d.history.moved S.pt := by rw [b2, a2, hs.history]
      have e2 : d'.state = d.state.moved S := by rw [b1, a1, hs.state]
      refine ⟨⟨hsam, e2, hp, e1, ht, hst, by rw [b3, a3, hs.clockReads]⟩, ?_⟩
      rw [b4, a4, MoveSim.data e1 e2]; rfl
    · simp [hc] at hres
  · rcases h5' with ⟨hc, _⟩ | ⟨inds', b', rfl, b1, b2, b3, b4⟩
    · simp [hc] at hres
    · simp only [Option.map_some, Option.some.injEq] at hres
      subst hres
      have e1 : d'.history = d.history.moved S.pt := by
        rw [hs.history, hmode', history_update_move, a1] at b1
        exact (Outcome.ok.inj b1).symm
      rw [hs.state, hs.steps, hsam.functionEvals, hs.parameters, update_move, a2] at b2
      have b2' : (d.state.moved S, b) = (d'.state, b') := Outcome.ok.inj b2
      obtain ⟨b21, rfl⟩ := Prod.mk.inj b2'
      have e2 : d'.state = d.state.moved S := b21.symm
      cases b with
      | false =>
        obtain ⟨a5, a6⟩ := a3 rfl
        obtain ⟨b5, b6⟩ := b3 rfl
        refine ⟨⟨hsam, e2, hp, e1, ht, hst, by rw [b6, a6, hs.clockReads]⟩, ?_⟩
        rw [b5, a5, MoveSim.data e1 e2]; rfl
      | true =>
        obtain ⟨a5, rs, a6, a7⟩ := a4 rfl
        obtain ⟨b5, rs', b6, b7⟩ := b4 rfl
        rw [hmt] at b5 b6
        have hci : ∀ e, checkInput d' e (inds.map (movePt S.pt)) =
            { checkInput d e inds with
              parameters := d.parameters.moved S
              state := d.state.moved S
              history := d.history.moved S.pt
              individuals := inds.map (movePt S.pt) } := by
          intro e; unfold checkInput; rw [hsam.functionEvals, hp, e1, e2]
        rw [hci, hs.clockReads, hs.timeCreated] at b6
        have hcheck := check_move S (m := env.medianNaN) (t := checkInput d
          (if c.parameters.termination.maxTime.isSome then
                env.clock c.world.clockReads - c.timeCreated else 0) inds)
        have b6' := hcheck.symm.trans b6
        rw [a6] at b6'
        injection b6' with b6'
        subst b6'
        refine ⟨⟨hsam, e2, hp, e1, ht, hst, by rw [b5, a5, hs.clockReads]⟩, ?_⟩
        rw [b7, a7, MoveSim.data e1 e2]
        cases rs.isEmpty <;> rfl

theorem MoveSim.of_sameRun {c c' d d' : CMAES n F R} (h : MoveSim S c c') (s : SameRun c d)
    (s' : SameRun c' d') : MoveSim S d d' :=
  ⟨by rw [s.sampler, s'.sampler]; exact h.sampler, by rw [s.state, s'.state, h.state],
    by rw [s.parameters, s'.parameters, h.parameters],
    by rw [s.history, s'.history, h.history], by rw [s.timeCreated, s'.timeCreated, h.timeCreated],
    by rw [s.steps, s'.steps, h.steps], by rw [s.clockReads, s'.clockReads, h.clockReads]⟩

theorem exec_move [FltLaws F] {env : Env n F R} {c0 c0' c c' : CMAES n F R} {t t' : List (NextCall n F)}
    (hs : MoveSim S c0 c0') (h : Exec env c0 t c) (h' : Exec env c0' t' c')
    (hk : t'.map (fun s => s.kind) = t.map fun s => s.kind) :
    MoveSim S c c' ∧ t' = t.map (NextCall.moved S.pt) := by
  induction t using List.reverseRecOn generalizing t' c c' with
  | nil =>
    simp only [List.map_nil, List.map_eq_nil_iff] at hk
    subst hk
    exact ⟨hs.of_sameRun h.nil_sameRun h'.nil_sameRun, rfl⟩
  | append_singleton t s ih =>
    cases t' using List.reverseRecOn with
    | nil => simp at hk
    | append_singleton t' s' =>
      simp only [List.map_append, List.map_cons, List.map_nil] at hk
      obtain ⟨hk1, hk2⟩ := List.append_inj' hk rfl
      simp only [List.cons.injEq, and_true] at hk2
      obtain ⟨c1, c2, h1, h2, h3, h4⟩ := h.last_next
      obtain ⟨c1', c2', h1', h2', h3', h4'⟩ := h'.last_next
      obtain ⟨hs1, rfl⟩ := ih h1 h1' hk1
      rw [hk2] at h2'
      obtain ⟨hs2, hr⟩ := next_move hs1 h2 h2'
      rw [hs2.sampler.obj.log, h3, hs1.sampler.obj.log, moveCalls_append] at h3'
      have hcalls := List.append_cancel_left h3'
      refine ⟨hs2.of_sameRun h4.nil_sameRun h4'.nil_sameRun, ?_⟩
      rw [List.map_append]
      congr 1
      cases s; cases s'
      simp only at hk2 hr hcalls
      simp only [List.map_cons, List.map_nil, NextCall.moved, hk2, hr, hcalls]

/-! ### Exact arithmetic -/

namespace XR
variable {α : ℝ}

theorem infMul_pos (hα : 0 < α) (p : Bool) : (Ext.infMul p α : XR) = Ext.sinf p := by
  cases p <;> simp [Ext.infMul, hα.ne', hα]

theorem infMul_mul (hα : 0 < α) (p : Bool) (x : ℝ) :
    (Ext.infMul p (α * x) : XR) = Ext.infMul p x := by
  unfold Ext.infMul
  by_cases hx : x = 0
  · simp [hx]
  · have : (0 < α * x) = (0 < x) := by rw [mul_pos_iff_of_pos_left hα]
    simp [hx, hα.ne', this]

theorem scale_nan (α : ℝ) : (.fin α * .nan : XR) = .nan := rfl
theorem scale_pinf (hα : 0 < α) : (.fin α * .pinf : XR) = .pinf := infMul_pos hα true
theorem scale_ninf (hα : 0 < α) : (.fin α * .ninf : XR) = .ninf := infMul_pos hα false

theorem scale_sinf (hα : 0 < α) (p : Bool) : (.fin α * Ext.sinf p : XR) = Ext.sinf p := by
  cases p
  · exact scale_ninf hα
  · exact scale_pinf hα

theorem scale_infMul (hα : 0 < α) (p : Bool) (x : ℝ) :
    (.fin α * Ext.infMul p x : XR) = Ext.infMul p x := by
  unfold Ext.infMul
  split
  · rfl
  · exact scale_sinf hα _

theorem mul_comm' (a b : XR) : a * b = b * a := by
  cases a <;> cases b <;> first | rfl | skip
  rw [mul_fin, mul_fin, mul_comm]

theorem scale_assoc (hα : 0 < α) (a b : XR) : .fin α * a * b = .fin α * (a * b) := by
  cases a with
  | nan => rfl
  | pinf =>
    rw [scale_pinf hα]
    cases b with
    | nan => rfl
    | pinf => exact (scale_pinf hα).symm
    | ninf => exact (scale_ninf hα).symm
    | fin b => exact (scale_infMul hα true b).symm
  | ninf =>
    rw [scale_ninf hα]
    cases b with
    | nan => rfl
    | pinf => exact (scale_ninf hα).symm
    | ninf => exact (scale_pinf hα).symm
    | fin b => exact (scale_infMul hα false b).symm
  | fin a =>
    rw [mul_fin]
    cases b with
    | nan => rfl
    | pinf => exact (infMul_mul hα true a).trans (scale_infMul hα true a).symm
    | ninf => exact (infMul_mul hα false a).trans (scale_infMul hα false a).symm
    | fin b => rw [mul_fin, mul_fin, mul_fin, mul_assoc]

theorem scale_left_comm (hα : 0 < α) (a b : XR) : a * (.fin α * b) = .fin α * (a * b) := by
  rw [mul_comm' a, scale_assoc hα, mul_comm' b]

theorem scale_add (hα : 0 < α) (a b : XR) : .fin α * (a + b) = .fin α * a + .fin α * b := by
  cases a with
  | nan => rfl
  | pinf =>
    rw [scale_pinf hα]
    cases b with
    | nan => rfl
    | pinf => rw [scale_pinf hα]; exact scale_pinf hα
    | ninf => rw [scale_ninf hα]; rfl
    | fin b => exact scale_pinf hα
  | ninf =>
    rw [scale_ninf hα]
    cases b with
    | nan => rfl
    | pinf => rw [scale_pinf hα]; rfl
    | ninf => rw [scale_ninf hα]; exact scale_ninf hα
    | fin b => exact scale_ninf hα
  | fin a =>
    cases b with
    | nan => rfl
    | pinf => rw [scale_pinf hα]; exact scale_pinf hα
    | ninf => rw [scale_ninf hα]; exact scale_ninf hα
    | fin b => rw [add_fin, mul_fin, mul_fin, mul_fin, add_fin, mul_add]

theorem add_right_comm' (a b : XR) (t : ℝ) : a + .fin t + b = a + b + .fin t := by
  cases a <;> cases b <;> first | rfl | skip
  rw [add_fin, add_fin, add_fin, add_fin, add_right_comm]

theorem lt_scale (hα : 0 < α) (a b : XR) : Flt.lt (.fin α * a) (.fin α * b) = Flt.lt a b := by
  cases a <;> cases b <;>
    simp only [scale_nan, scale_pinf hα, scale_ninf hα, mul_fin] <;> first | rfl | skip
  rw [lt_fin, lt_fin]
  simp [mul_lt_mul_iff_right₀ hα]

theorem abs_scale (hα : 0 < α) (a : XR) : Flt.abs (.fin α * a) = .fin α * Flt.abs a := by
  cases a with
  | nan => rfl
  | pinf => rw [scale_pinf hα]; exact (scale_pinf hα).symm
  | ninf => rw [scale_ninf hα]; exact (scale_pinf hα).symm
  | fin a => rw [mul_fin, abs_fin, abs_fin, mul_fin, abs_mul, abs_of_pos hα]

theorem feq_affine (hα : 0 < α) (t : ℝ) (a b : XR) :
    Flt.feq (.fin α * a + .fin t) (.fin α * b + .fin t) = Flt.feq a b := by
  cases a <;> cases b <;>
    simp only [scale_nan, scale_pinf hα, scale_ninf hα, mul_fin] <;> first | rfl | skip
  rw [add_fin, add_fin]
  show decide (_ = _) = decide (_ = _)
  simp [Fmt.toK, hα.ne']

theorem div_scale (hα : 0 < α) (a b : XR) : .fin α * a / (.fin α * b) = a / b := by
  have hs : ∀ x : ℝ, (0 ≤ α * x) = (0 ≤ x) := fun x => by rw [mul_nonneg_iff_of_pos_left hα]
  have hs' : ∀ x : ℝ, (0 < α * x) = (0 < x) := fun x => by rw [mul_pos_iff_of_pos_left hα]
  cases a <;> cases b <;>
    simp only [scale_nan, scale_pinf hα, scale_ninf hα, mul_fin] <;> first | rfl | skip
  · show Ext.sinf _ = Ext.sinf _
    simp [Fmt.toK, hs]
  · show Ext.sinf _ = Ext.sinf _
    simp [Fmt.toK, hs]
  · rename_i a b
    by_cases hb : b = 0
    · subst hb
      show (if α * 0 = 0 then _ else _) = if (0 : ℝ) = 0 then _ else _
      rw [if_pos (mul_zero _), if_pos rfl]
      by_cases ha : a = 0
      · simp [Fmt.toK, ha]
      · simp [Fmt.toK, ha, hα.ne', hs']
    · rw [div_fin hb, div_fin (mul_ne_zero hα.ne' hb), mul_div_mul_left _ _ hα.ne']

end XR

open XR in
/-- Moving and scaling in exact arithmetic. -/
noncomputable def similarity {α : ℝ} (hα : 0 < α) (τ : Fin n → ℝ) : Similarity n XR where
  pt := affine α τ
  sc x := .fin α * x
  toPoint y m σ := by
    funext i
    show .fin α * m i + .fin (τ i) + .fin α * σ * y i = .fin α * (m i + σ * y i) + .fin (τ i)
    rw [scale_assoc hα, add_right_comm', ← scale_add hα]
  mean m y c σ := by
    funext i
    show .fin α * m i + .fin (τ i) + c * (.fin α * σ) * y i =
      .fin α * (m i + c * σ * y i) + .fin (τ i)
    rw [scale_left_comm hα, scale_assoc hα, add_right_comm', ← scale_add hα]
  sigma σ x := scale_assoc hα σ x
  tolX σ x tol := by rw [scale_assoc hα, abs_scale hα, lt_scale hα]
  axis m v k σ d := by
    unfold Vec.beq
    congr 2
    funext i
    show Flt.feq (.fin α * m i + .fin (τ i))
        (.fin α * m i + .fin (τ i) + k * (.fin α * σ) * d * v i) =
      Flt.feq (m i) (m i + k * σ * d * v i)
    rw [scale_left_comm hα, scale_assoc hα, scale_assoc hα, add_right_comm', ← scale_add hα,
      feq_affine hα]
  coord m k σ d i := by
    show Flt.feq (.fin α * m i + .fin (τ i))
        (.fin α * m i + .fin (τ i) + k * (.fin α * σ) * d) = _
    rw [scale_left_comm hα, scale_assoc hα, add_right_comm', ← scale_add hα, feq_affine hα]
  ratio σ m σ0 := by rw [scale_assoc hα, div_scale hα]
  small k σ := scale_left_comm hα k σ

section
variable {env : Env n XR R} {w w' : World n XR} {obj obj' : Obj n XR} {o o' : Options n XR}
  {c0 c0' c c' d d' : CMAES n XR R} {t t' : List (NextCall n XR)} {kind : EvalKind}
  {x x' : TerminationData n XR} {α : ℝ} {τ : Fin n → ℝ}

theorem create_move (hα : 0 < α) (ho : MovedOptions α τ o o')
    (hobj : Moved (affine α τ) obj.f obj'.f) (hlog : obj'.log = moveCalls (affine α τ) obj.log)
    (hw : w'.steps = w.steps ∧ w'.clockReads = w.clockReads) :
    MoveSim (similarity hα τ) (CMAES.create env w obj o) (CMAES.create env w' obj' o') := by
  obtain ⟨a1, a2, a3, a4, _, a5, a6, a7, _⟩ := create_search env w obj o
  obtain ⟨b1, b2, b3, b4, _, b5, b6, b7, _⟩ := create_search env w' obj' o'
  have hr := ho.rest
  have e1 : o'.maxResamples = o.maxResamples := by rw [hr]
  have e2 : o'.populationSize = o.populationSize := by rw [hr]
  have e3 : o'.seed = o.seed := by rw [hr]
  refine ⟨?_, ?_, ?_, by rw [a4, b4]; rfl, by rw [a5, b5, hw.2], by rw [a7, b7, hw.1],
    by rw [a6, b6, hw.2]⟩
  · rw [a1, b1, e1, e2, e3]
    exact ⟨ho.constraints, rfl, rfl, rfl, rfl, hobj, hlog⟩
  · rw [a3, b3, hr]; rfl
  · rw [a2, b2, e3]
    have htol : TerminationParameters.fromOptions o' =
        { TerminationParameters.fromOptions o with
          tolX := .fin α * (TerminationParameters.fromOptions o).tolX } := by
      rw [hr]
      unfold TerminationParameters.fromOptions
      congr 1
      cases o.tolX with
      | none => exact XR.scale_left_comm hα _ _
      | some v => rfl
    unfold Parameters.fromOptions Parameters.moved
    rw [htol, hr]
    rfl

/-- The moved problem is accepted by `build` exactly if the original one is. -/
theorem c40_builds (hα : 0 < α) (ho : MovedOptions α τ o o') :
    CMAES.validate o' = CMAES.validate o := by
  have hr := ho.rest
  have h1 : isInitialStepSizeValid o'.initialStepSize = isInitialStepSizeValid o.initialStepSize := by
    rw [hr]
    unfold isInitialStepSizeValid
    cases hσ : o.initialStepSize with
    | nan => rfl
    | pinf => rw [show (.fin α * .pinf : XR) = .pinf from XR.scale_pinf hα]
    | ninf => rw [show (.fin α * .ninf : XR) = .ninf from XR.scale_ninf hα]
    | fin σ =>
      simp only [XR.mul_fin, XR.isNormal_fin, XR.zero_eq, XR.lt_fin, mul_pos_iff_of_pos_left hα]
      simp [hα.ne']
  unfold CMAES.validate
  rw [h1, hr]

/-- **C40.** In exact arithmetic, let one `CMAES` search for the optimum of `obj` with options `o`
and another for the optimum of the same function after the change of variables `x ↦ α x + τ` with
`α > 0`: its objective has at `α x + τ` the value of `obj` at `x`, its initial mean is
`α mean + τ`, its initial step size is `α` times as large, its constraints are moved, `tol_x` (if
given) is scaled, and all other options are equal. Let both be driven through the same sequence of
`next`/`next_parallel` calls (with any plotting and printing calls in between). Then every call
evaluates the moved points, in the same order, and returns the moved data with the same reasons; the
mean and the best points are moved, the step size is scaled, and covariance matrix, eigenvalues,
axis ratio, values and counters agree. -/
theorem c40_invariance (hα : 0 < α) (ho : MovedOptions α τ o o')
    (hobj : Moved (affine α τ) obj.f obj'.f) (hlog : obj'.log = moveCalls (affine α τ) obj.log)
    (hw : w'.steps = w.steps ∧ w'.clockReads = w.clockReads)
    (h0 : CMAES.new env w obj o = .ok c0) (h0' : CMAES.new env w' obj' o' = .ok c0')
    (h : Exec env c0 t c) (h' : Exec env c0' t' c')
    (hk : t'.map (fun s => s.kind) = t.map fun s => s.kind) :
    t' = t.map (NextCall.moved (affine α τ)) ∧
      c'.mean = affine α τ c.mean ∧ c'.sigma = .fin α * c.sigma ∧
      c'.covarianceMatrix = c.covarianceMatrix ∧ c'.eigenvalues = c.eigenvalues ∧
      c'.axisRatio = c.axisRatio ∧ c'.generation = c.generation ∧
      c'.functionEvals = c.functionEvals ∧
      c'.currentBestIndividual = c.currentBestIndividual.map (Individual.moved (affine α τ)) ∧
      c'.overallBestIndividual = c.overallBestIndividual.map (Individual.moved (affine α τ)) := by
  obtain ⟨_, e⟩ := new_eq_ok h0
  obtain ⟨_, e'⟩ := new_eq_ok h0'
  have hs : MoveSim (similarity hα τ) c0 c0' := by rw [e, e']; exact create_move hα ho hobj hlog hw
  obtain ⟨h1, h2⟩ := exec_move hs h h' hk
  refine ⟨h2, ?_, ?_, ?_, ?_, ?_, ?_, h1.sampler.functionEvals, ?_, ?_⟩
  · unfold CMAES.mean; rw [h1.state]; rfl
  · unfold CMAES.sigma; rw [h1.state]; rfl
  · unfold CMAES.covarianceMatrix; rw [h1.state]; rfl
  · unfold CMAES.eigenvalues; rw [h1.state]; rfl
  · unfold CMAES.axisRatio; rw [h1.state]; rfl
  · unfold CMAES.generation; rw [h1.state]; rfl
  · unfold CMAES.currentBestIndividual; rw [h1.history]; rfl
  · unfold CMAES.overallBestIndividual; rw [h1.history]; rfl

/-- **C40, translation.** Shifting initial mean, constraints and objective by `τ`, and nothing else,
shifts all points and means by `τ` and leaves step size and covariance matrix unchanged. -/
theorem c40_translation (hobj : Moved (fun x i => x i + .fin (τ i)) obj.f obj'.f)
    (hlog : obj'.log = moveCalls (fun x i => x i + .fin (τ i)) obj.log)
    (ho : o' = { o with
      initialMean := fun i => o.initialMean i + .fin (τ i), constraints := o'.constraints })
    (hcs : Option.Rel (MovedConstraint fun (x : Vec n XR) i => x i + .fin (τ i))
      o.constraints o'.constraints)
    (hw : w'.steps = w.steps ∧ w'.clockReads = w.clockReads)
    (h0 : CMAES.new env w obj o = .ok c0) (h0' : CMAES.new env w' obj' o' = .ok c0')
    (h : Exec env c0 t c) (h' : Exec env c0' t' c')
    (hk : t'.map (fun s => s.kind) = t.map fun s => s.kind) :
    t' = t.map (NextCall.moved fun x i => x i + .fin (τ i)) ∧
      (∀ i, c'.mean i = c.mean i + .fin (τ i)) ∧ c'.sigma = c.sigma ∧
      c'.covarianceMatrix = c.covarianceMatrix := by
  have hone : ∀ x : XR, .fin 1 * x = x := fun x => by
    cases x with
    | nan => rfl
    | pinf => exact XR.scale_pinf one_pos
    | ninf => exact XR.scale_ninf one_pos
    | fin v => rw [XR.mul_fin, one_mul]
  have hA : affine (n := n) 1 τ = fun x i => x i + .fin (τ i) := by
    funext x i
    show .fin 1 * x i + .fin (τ i) = _
    rw [hone]
  rw [← hA] at hobj hlog hcs ⊢
  have hm : MovedOptions 1 τ o o' := by
    refine ⟨?_, hcs⟩
    rw [hone, hA]
    conv_lhs => rw [ho]
    congr 1
    cases o.tolX <;> simp [hone]
  obtain ⟨h1, h2, h3, h4, _⟩ := c40_invariance one_pos hm hobj hlog hw h0 h0' h h' hk
  rw [hone] at h3
  refine ⟨h1, fun i => ?_, h3, h4⟩
  rw [h2, hA]

/-- **C40, scaling.** Scaling initial mean, initial step size, `tol_x`, constraints and the argument
of the objective by `α > 0`, and nothing else, scales all points, means and step sizes by `α` and
leaves the covariance matrix unchanged. -/
theorem c40_scaling (hα : 0 < α) (hobj : Moved (fun x i => .fin α * x i) obj.f obj'.f)
    (hlog : obj'.log = moveCalls (fun x i => .fin α * x i) obj.log)
    (ho : o' = { o with
      initialMean := fun i => .fin α * o.initialMean i
      initialStepSize := .fin α * o.initialStepSize
      tolX := o.tolX.map fun x => .fin α * x
      constraints := o'.constraints })
    (hcs : Option.Rel (MovedConstraint fun (x : Vec n XR) i => .fin α * x i)
      o.constraints o'.constraints)
    (hw : w'.steps = w.steps ∧ w'.clockReads = w.clockReads)
    (h0 : CMAES.new env w obj o = .ok c0) (h0' : CMAES.new env w' obj' o' = .ok c0')
    (h : Exec env c0 t c) (h' : Exec env c0' t' c')
    (hk : t'.map (fun s => s.kind) = t.map fun s => s.kind) :
    t' = t.map (NextCall.moved fun x i => .fin α * x i) ∧
      (∀ i, c'.mean i = .fin α * c.mean i) ∧ c'.sigma = .fin α * c.sigma ∧
      c'.covarianceMatrix = c.covarianceMatrix := by
  have hA : affine (n := n) α (fun _ => 0) = fun x i => .fin α * x i := by
    funext x i
    show .fin α * x i + .fin 0 = _
    cases .fin α * x i with
    | nan => rfl
    | pinf => rfl
    | ninf => rfl
    | fin v => rw [XR.add_fin, add_zero]
  rw [← hA] at hobj hlog hcs ⊢
  have hm : MovedOptions α (fun _ => 0) o o' := ⟨by rw [hA]; exact ho, hcs⟩
  obtain ⟨h1, h2, h3, h4, _⟩ := c40_invariance hα hm hobj hlog hw h0 h0' h h' hk
  refine ⟨h1, fun i => ?_, h3, h4⟩
  rw [h2, hA]

/-- **C40, `run`.** If `run` ends in both, it ends with the same data, moved. -/
theorem c40_run (hα : 0 < α) (ho : MovedOptions α τ o o')
    (hobj : Moved (affine α τ) obj.f obj'.f) (hlog : obj'.log = moveCalls (affine α τ) obj.log)
    (hw : w'.steps = w.steps ∧ w'.clockReads = w.clockReads)
    (h0 : CMAES.new env w obj o = .ok c0) (h0' : CMAES.new env w' obj' o' = .ok c0')
    (he : Exec env c0 t c) (he' : Exec env c0' t' c')
    (hk : t'.map (fun s => s.kind) = t.map fun s => s.kind)
    (h : c.run env kind = .ok (d, x)) (h' : c'.run env kind = .ok (d', x')) :
    x' = x.moved (affine α τ) ∧ d'.functionEvals = d.functionEvals ∧
      d'.generation = d.generation ∧ d'.sigma = .fin α * d.sigma := by
  obtain ⟨_, e⟩ := new_eq_ok h0
  obtain ⟨_, e'⟩ := new_eq_ok h0'
  have hs0 : MoveSim (similarity hα τ) c0 c0' := by
    rw [e, e']; exact create_move hα ho hobj hlog hw
  have hs := (exec_move hs0 he he' hk).1
  have key : ∀ fuel {c c' d d' : CMAES n XR R} {x x' : TerminationData n XR},
      MoveSim (similarity hα τ) c c' →
      c.runLoop env kind fuel = .ok (d, x) → c'.runLoop env kind fuel = .ok (d', x') →
      MoveSim (similarity hα τ) d d' ∧ x' = x.moved (affine α τ) := by
    intro fuel
    induction fuel with
    | zero => intro c c' d d' x x' _ h; simp [CMAES.runLoop] at h
    | succ fuel ih =>
      intro c c' d d' x x' hs h h'
      simp only [CMAES.runLoop, Outcome.bind_eq_ok] at h h'
      obtain ⟨⟨e, r⟩, h1, h2⟩ := h
      obtain ⟨⟨e', r'⟩, h1', h2'⟩ := h'
      obtain ⟨hs1, rfl⟩ := next_move hs h1 h1'
      cases r with
      | none => exact ih hs1 h2 h2'
      | some y =>
        simp only [Option.map_some, Outcome.ok.injEq, Prod.mk.injEq] at h2 h2'
        obtain ⟨rfl, rfl⟩ := h2
        obtain ⟨rfl, rfl⟩ := h2'
        exact ⟨hs1, rfl⟩
  simp only [CMAES.run, Outcome.bind_eq_ok] at h h'
  obtain ⟨⟨e, y⟩, h1, h2⟩ := h
  obtain ⟨⟨e', y'⟩, h1', h2'⟩ := h'
  obtain ⟨hs1, rfl⟩ := key _ hs h1 h1'
  simp only [Outcome.ok.injEq, Prod.mk.injEq] at h2 h2'
  obtain ⟨rfl, rfl⟩ := h2
  obtain ⟨rfl, rfl⟩ := h2'
  have e1 := (runInternal_exec (env := env) e y).nil_sameRun
  have e2 := (runInternal_exec (env := env) e' (y.moved (affine α τ))).nil_sameRun
  have := hs1.of_sameRun e1 e2
  refine ⟨rfl, this.sampler.functionEvals, ?_, ?_⟩
  · unfold CMAES.generation; rw [this.state]; rfl
  · unfold CMAES.sigma; rw [this.state]; rfl

/-- Every point is a moved point. -/
theorem affine_surjective (hα : 0 < α) (τ : Fin n → ℝ) (y : Vec n XR) : ∃ x, affine α τ x = y := by
  have key : ∀ i, ∃ a : XR, .fin α * a + .fin (τ i) = y i := by
    intro i
    cases y i with
    | nan => exact ⟨.nan, rfl⟩
    | pinf => exact ⟨.pinf, by rw [XR.scale_pinf hα]; rfl⟩
    | ninf => exact ⟨.ninf, by rw [XR.scale_ninf hα]; rfl⟩
    | fin v =>
      refine ⟨.fin (α⁻¹ * (v - τ i)), ?_⟩
      rw [XR.mul_fin, XR.add_fin, mul_inv_cancel_left₀ hα.ne', sub_add_cancel]
  choose x hx using key
  exact ⟨x, funext hx⟩

theorem moveCalls_surjective (hα : 0 < α) (τ : Fin n → ℝ) (l : List (Vec n XR × XR)) :
    ∃ l0, moveCalls (affine α τ) l0 = l := by
  induction l with
  | nil => exact ⟨[], rfl⟩
  | cons a l ih =>
    obtain ⟨l0, rfl⟩ := ih
    obtain ⟨x, hx⟩ := affine_surjective hα τ a.1
    exact ⟨(x, a.2) :: l0, by simp [moveCalls, hx]⟩

/-- **C40, step by step.** The next generation can be computed in both (under the assumptions of
C26 on the original problem alone) and gives the same result, moved. -/
theorem c40_next (hα : 0 < α) (ho : MovedOptions α τ o o')
    (hobj : Moved (affine α τ) obj.f obj'.f) (hlog : obj'.log = moveCalls (affine α τ) obj.log)
    (hw : w'.steps = w.steps ∧ w'.clockReads = w.clockReads)
    (h0 : CMAES.new env w obj o = .ok c0) (h0' : CMAES.new env w' obj' o' = .ok c0')
    (h : Exec env c0 t c) (h' : Exec env c0' t' c')
    (hk : t'.map (fun s => s.kind) = t.map fun s => s.kind)
    (hc : CanStep env obj o c) (he : SamplingEnds env o) (kind : EvalKind) :
    ∃ d d' r, c.next env kind = .ok (d, r) ∧
      c'.next env kind = .ok (d', r.map (TerminationData.moved (affine α τ))) := by
  obtain ⟨_, _, _, _, _, _, hg, hf, _⟩ :=
    c40_invariance hα ho hobj hlog hw h0 h0' h h' hk
  have hr := ho.rest
  have hc' : CanStep env obj' o' c' := by
    refine ⟨fun k' hk' y => ?_, by rw [hg]; exact hc.generation, fun po hpo => ?_,
      fun gap hgap => ?_, ?_⟩
    · have hcs := ho.constraints
      rw [hk'] at hcs
      cases hko : o.constraints with
      | none => rw [hko] at hcs; cases hcs
      | some k =>
        rw [hko] at hcs
        obtain ⟨hcs⟩ := hcs
        obtain ⟨x, rfl⟩ := affine_surjective hα τ y
        rw [hcs x]
        exact hc.constraints k hko x
    · rw [hf]; exact hc.plotGap po (by rw [← hpo, hr])
    · rw [hf]; exact hc.printGap gap (by rw [← hgap, hr])
    · refine hc.median.imp id fun hm log y => ?_
      obtain ⟨l0, rfl⟩ := moveCalls_surjective hα τ log
      obtain ⟨x, rfl⟩ := affine_surjective hα τ y
      rw [hobj]; exact hm l0 x
  have he' : SamplingEnds env o' := by
    rcases he with ⟨h1, h2⟩ | ⟨m, h1, h2⟩
    · refine .inl ⟨?_, h2⟩
      have hcs := ho.constraints
      rw [h1] at hcs
      cases hko : o'.constraints with
      | none => rfl
      | some k => rw [hko] at hcs; cases hcs
    · exact .inr ⟨m, by rw [hr]; exact h1, h2⟩
  obtain ⟨d, r, hd⟩ := c26_returns ⟨w, c0, h0, h⟩ hc he kind
  obtain ⟨d', r', hd'⟩ := c26_returns ⟨w', c0', h0', h'⟩ hc' he' kind
  obtain ⟨_, e⟩ := new_eq_ok h0
  obtain ⟨_, e'⟩ := new_eq_ok h0'
  have hs0 : MoveSim (similarity hα τ) c0 c0' := by
    rw [e, e']; exact create_move hα ho hobj hlog hw
  obtain ⟨_, rfl⟩ := next_move (exec_move hs0 h h' hk).1 hd hd'
  exact ⟨d, d', r, hd, hd'⟩

end
namespace WitnessReal

/-- The sphere function around `(3, -1)`, at half the scale; zero for points that are not real. -/
noncomputable def movedSphere : Obj 2 XR :=
  { f := fun _ y => .fin (sphereValue fun i => .fin (1 / 2) * (y i + .fin (if i = 0 then -3 else 1)))
    log := [] }

/-- The options for `movedSphere` that correspond to `opts` for `sphere`. -/
noncomputable def movedOpts : Options 2 XR :=
  { opts with
    initialMean := affine 2 (fun i => if i = 0 then 3 else -1) opts.initialMean
    initialStepSize := .fin 2 * .fin 1 }

theorem moved_sphere :
    Moved (affine 2 (fun i => if i = 0 then 3 else -1)) sphere.f movedSphere.f := by
  intro log x
  show Ext.fin (sphereValue _) = Ext.fin (sphereValue x)
  congr 2
  funext i
  show .fin (1 / 2) * (.fin 2 * x i + .fin _ + .fin _) = x i
  cases x i with
  | nan => rfl
  | pinf =>
    rw [XR.scale_pinf (by norm_num)]
    exact XR.scale_pinf (by norm_num)
  | ninf =>
    rw [XR.scale_ninf (by norm_num)]
    exact XR.scale_ninf (by norm_num)
  | fin v =>
    rw [XR.mul_fin, XR.add_fin, XR.add_fin, XR.mul_fin]
    congr 1
    by_cases hi : i = 0
    · simp only [if_pos hi]; ring
    · simp only [if_neg hi]; ring

theorem moved_opts : MovedOptions 2 (fun i => if i = 0 then 3 else -1) opts movedOpts :=
  ⟨rfl, .none⟩

/-- Two corresponding runs, over any number of generations. -/
theorem moved_run : ∀ k < 2 ^ 30, ∃ c0 c0' c c' t t',
    CMAES.new (renv 2) World.init sphere opts = .ok c0 ∧
    CMAES.new (renv 2) World.init movedSphere movedOpts = .ok c0' ∧
    Exec (renv 2) c0 t c ∧ Exec (renv 2) c0' t' c' ∧
    t'.map (fun s => s.kind) = t.map (fun s => s.kind) ∧ t.length = k ∧ c.generation = k := by
  intro k
  induction k with
  | zero =>
    intro _
    obtain ⟨c0, h0⟩ := witness_new (renv 2) opts.weights (lambda := 6) (by norm_num)
    obtain ⟨c0', h0'⟩ := (c30_valid_iff (renv 2) World.init movedSphere movedOpts).mpr (by
      obtain ⟨h1, h2, ⟨h3, h4⟩, h5⟩ := (c30_valid_iff (renv 2) World.init sphere opts).mp ⟨c0, h0⟩
      refine ⟨h1, h2, ⟨?_, ?_⟩, h5⟩
      · show Flt.isNormal (.fin 2 * .fin 1 : XR) = true
        rw [XR.mul_fin, XR.isNormal_fin]; simp
      · show Flt.lt 0 (.fin 2 * .fin 1 : XR) = true
        rw [XR.mul_fin, XR.zero_eq, XR.lt_fin]; simp)
    refine ⟨c0, c0', c0, c0', [], [], h0, h0', .refl _, .refl _, rfl, rfl, ?_⟩
    obtain ⟨_, e⟩ := new_eq_ok h0
    rw [e]; rfl
  | succ k ih =>
    intro hk
    obtain ⟨c0, c0', c, c', t, t', h0, h0', h, h', hkind, ht, hg⟩ := ih (by omega)
    have hc : CanStep (renv 2) sphere opts c :=
      witness_canStep (renv 2) (fun l => ⟨_, rfl⟩) opts.weights 6 (by omega)
    obtain ⟨d, d', r, hd, hd'⟩ := c40_next (by norm_num) moved_opts moved_sphere rfl ⟨rfl, rfl⟩
      h0 h0' h h' hkind hc (.inl ⟨rfl, by decide⟩) .seq
    obtain ⟨calls, hl⟩ := next_log hd
    obtain ⟨calls', hl'⟩ := next_log hd'
    refine ⟨c0, c0', d, d', _, _, h0, h0', .next h hd hl, .next h' hd' hl', by simp [hkind],
      by simp [ht], ?_⟩
    obtain ⟨d1, r1, calls1, e1, _, _, hg', _⟩ := exact_step (witness_exact opts.weights 6)
      (rateSum_lt_one (by norm_num) (by norm_num) (by norm_num)) ⟨_, _, h0, h⟩ hc
      (.inl ⟨rfl, by decide⟩) (fun log x => XR.isNaN_fin _) .seq
    rw [hd] at e1
    injection e1 with e1
    rw [show d = d1 from congrArg Prod.fst e1, hg', hg]

/-- C40: the hypotheses are met by two different runs of a thousand generations. -/
example : ∃ c0 c0' c c' t t',
    CMAES.new (renv 2) World.init sphere opts = .ok c0 ∧
    CMAES.new (renv 2) World.init movedSphere movedOpts = .ok c0' ∧
    Exec (renv 2) c0 t c ∧ Exec (renv 2) c0' t' c' ∧
    t'.map (fun s => s.kind) = t.map (fun s => s.kind) ∧ t.length = 1000 ∧ c.generation = 1000 :=
  moved_run 1000 (by norm_num)

end WitnessReal

end Cmaes
