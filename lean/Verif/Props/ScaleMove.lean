import Verif.Props.MoveOutcome
import Verif.Props.Functions

/-!
# C49: `Scale` with equal factors only changes units
-/

set_option linter.unusedSectionVars false

namespace Cmaes
variable {n : Nat} {R : Type}

theorem cmul_const (α : ℝ) (x : Vec n XR) : x.cmul (fun _ => .fin α) = fun i => .fin α * x i := by
  funext i
  show x i * .fin α = _
  exact XR.mul_comm' _ _

section
variable {env : Env n XR R} {o o' : Options n XR} {w w' : World n XR} {c0 c0' : CMAES n XR R} {α : ℝ}

/-- **C49, equal factors.** In exact arithmetic, let one `CMAES` search with options `o` for the
optimum of `Scale` with the same factor `α > 0` in all coordinates, and another one for the optimum
of the wrapped function itself, with initial mean, initial step size, `tol_x` (if given) and
constraints multiplied by `α`. Then the same user calls have the same outcome on both: both panic in
the same way, or neither ends, or both return the same data, the second with all points multiplied
by `α`, after calling the wrapped function at the same points and getting the same values. -/
theorem c49_uniform (hα : 0 < α) {f : List (Vec n XR × XR) → Vec n XR → XR}
    (ho : o' = { o with
      initialMean := fun i => .fin α * o.initialMean i
      initialStepSize := .fin α * o.initialStepSize
      tolX := o.tolX.map fun x => .fin α * x
      constraints := o'.constraints })
    (hcs : Option.Rel (MovedConstraint fun (x : Vec n XR) i => .fin α * x i)
      o.constraints o'.constraints)
    (hw : w'.steps = w.steps ∧ w'.clockReads = w.clockReads)
    (h0 : CMAES.new env w (Scale.toObj ⟨f, []⟩ fun _ => .fin α) o = .ok c0)
    (h0' : CMAES.new env w' ⟨f, []⟩ o' = .ok c0') (ops : List Op) :
    Outcome.Rel (fun a b =>
        b.2 = a.2.map (Option.map (TerminationData.moved fun x i => .fin α * x i)) ∧
        b.1.intoObjectiveFunction.log =
          a.1.intoObjectiveFunction.log.map (fun e => (fun i => .fin α * e.1 i, e.2)) ∧
        (∀ i, b.1.mean i = .fin α * a.1.mean i) ∧ b.1.sigma = .fin α * a.1.sigma ∧
        b.1.covarianceMatrix = a.1.covarianceMatrix ∧ b.1.generation = a.1.generation ∧
        b.1.functionEvals = a.1.functionEvals ∧
        b.1.overallBestIndividual =
          a.1.overallBestIndividual.map (Individual.moved fun x i => .fin α * x i))
      (c0.applyAll env ops) (c0'.applyAll env ops) := by
  have hA : affine (n := n) α (fun _ => 0) = fun x i => .fin α * x i := by
    funext x i
    show .fin α * x i + .fin 0 = _
    cases .fin α * x i with
    | nan => rfl
    | pinf => rfl
    | ninf => rfl
    | fin v => rw [XR.add_fin, add_zero]
  have hm : MovedOptions α (fun _ => 0) o o' := ⟨by rw [hA]; exact ho, by rw [hA]; exact hcs⟩
  have hobj : Moved (affine α fun _ => 0) (Scale.toObj ⟨f, []⟩ fun _ => .fin α).f f := by
    intro log x
    rw [hA]
    simp only [Scale.toObj, cmul_const, List.nil_append]
    rfl
  refine (c40_outcome hα hm hobj rfl hw h0 h0' ops).mono ?_
  rintro a b ⟨h1, h2, h3, h4, h5, h6, h7, -, h9⟩
  rw [hA] at h1 h2 h3 h9
  exact ⟨h1, h2, fun i => by rw [h3], h4, h5, h6, h7, h9⟩

end

namespace WitnessReal

/-- The options for `sphere` that correspond to `opts` for `sphere` scaled by two. -/
noncomputable def doubledOpts : Options 2 XR :=
  { opts with
    initialMean := fun i => .fin 2 * opts.initialMean i
    initialStepSize := .fin 2 * opts.initialStepSize }

/-- The hypotheses of `c49_uniform` are met, and both users get through two generations. -/
example : ∃ c0 c0' x x',
    CMAES.new (renv 2) World.init (Scale.toObj ⟨sphere.f, []⟩ fun _ => .fin 2) opts = .ok c0 ∧
    CMAES.new (renv 2) World.init ⟨sphere.f, []⟩ doubledOpts = .ok c0' ∧
    c0.applyAll (renv 2) [.next .seq, .next .par, .printInfo] = .ok x ∧
    c0'.applyAll (renv 2) [.next .seq, .next .par, .printInfo] = .ok x' ∧
    x.1.generation = 2 := by
  obtain ⟨a0, a0', _, _, _, _, k0, k0', -⟩ := moved_run 0 (by norm_num)
  obtain ⟨c0, h0⟩ := (c30_valid_iff (renv 2) World.init
    (Scale.toObj ⟨sphere.f, []⟩ fun _ => .fin 2) opts).mpr
      ((c30_valid_iff (renv 2) World.init sphere opts).mp ⟨_, k0⟩)
  obtain ⟨c0', h0'⟩ := (c30_valid_iff (renv 2) World.init ⟨sphere.f, []⟩ doubledOpts).mpr
      ((c30_valid_iff (renv 2) World.init movedSphere movedOpts).mp ⟨_, k0'⟩)
  have hg0 : c0.generation = 0 := by rw [(new_eq_ok h0).2]; rfl
  have hx := witness_exact opts.weights 6
  have hr : rateSum opts < 1 := rateSum_lt_one (by norm_num) (by norm_num [opts, Options.new])
    (by norm_num [opts, Options.new])
  have hv : ∀ log x, Flt.isNaN ((Scale.toObj ⟨sphere.f, []⟩ fun _ => .fin 2).f log x) = false :=
    fun log x => XR.isNaN_fin _
  have hc : ∀ c : CMAES 2 XR Nat, c.generation < 2 ^ 30 - 1 →
      CanStep (renv 2) (Scale.toObj ⟨sphere.f, []⟩ fun _ => .fin 2) opts c := by
    intro c hg
    have := witness_canStep (renv 2) (fun l => ⟨_, rfl⟩) opts.weights 6 hg
    exact ⟨this.constraints, hg, this.plotGap, this.printGap, .inl fun l => ⟨_, rfl⟩⟩
  obtain ⟨c1, r1, l1, e1, -, -, g1, H1⟩ := exact_step hx hr ⟨_, _, h0, .refl _⟩
    (hc c0 (by rw [hg0]; norm_num)) (.inl ⟨rfl, by decide⟩) hv .seq
  obtain ⟨c2, r2, l2, e2, -, -, g2, H2⟩ := exact_step hx hr H1
    (hc c1 (by rw [g1, hg0]; norm_num)) (.inl ⟨rfl, by decide⟩) hv .par
  have hall : c0.applyAll (renv 2) [.next .seq, .next .par, .printInfo] =
      .ok (c2.printInfo, [r1, r2, none]) := by
    simp only [CMAES.applyAll, CMAES.apply, e1, e2, Outcome.ok_bind]
  have hrel := c49_uniform (o := opts) (o' := doubledOpts) (α := 2) (by norm_num) rfl .none
    ⟨rfl, rfl⟩ h0 h0' [.next .seq, .next .par, .printInfo]
  rw [hall] at hrel
  generalize hy : c0'.applyAll (renv 2) [.next .seq, .next .par, .printInfo] = y at hrel
  cases hrel with
  | ok _ =>
    refine ⟨c0, c0', _, _, h0, h0', hall, hy, ?_⟩
    show c2.generation = 2
    rw [g2, g1, hg0]

end WitnessReal
end Cmaes
