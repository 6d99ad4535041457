import Verif.Props.Sane
import Verif.Props.Tolerance

/-!
# C80: a step size that has overflowed is reported
-/

set_option linter.unusedSectionVars false

namespace Cmaes
open FltLaws

theorem validate_normal {n : Nat} {F : Type} [Flt F] {o : Options n F}
    (h : CMAES.validate o = none) : Flt.isNormal o.initialStepSize = true := by
  unfold CMAES.validate isInitialStepSizeValid at h
  split at h
  · cases h
  · split at h
    · cases h
    · split at h
      · cases h
      · rename_i h3
        cases hl : Flt.isNormal o.initialStepSize with
        | true => rfl
        | false => rw [hl] at h3; simp at h3

section
variable {n : Nat} {R : Type} [Libm F64] {env : Env n F64 R} {obj : Obj n F64} {o : Options n F64}
  {t : List (NextCall n F64)} {c d : CMAES n F64 R}

theorem f64_inf_mul {x : F64} (h : 0 < val x) : (Flt.inf : F64) * x = Flt.inf := by
  cases x with
  | nan => exact absurd h (lt_irrefl _)
  | ninf => exact absurd h (not_lt.mpr bot_le)
  | pinf => rfl
  | fin a =>
    have ha : (0 : ℚ) < Fmt.toK a := Ext.val_fin_pos.mp h
    show Ext.infMul true (Fmt.toK a) = Ext.pinf
    unfold Ext.infMul
    rw [if_neg ha.ne', decide_eq_true ha]
    rfl

theorem f64_inf_div {x : F64} (h : 0 < val x) (hi : Flt.isNormal x = true) :
    (Flt.inf : F64) / x = Flt.inf := by
  cases x with
  | nan => cases hi
  | ninf => cases hi
  | pinf => cases hi
  | fin a =>
    have ha : (0 : ℚ) < Fmt.toK a := Ext.val_fin_pos.mp h
    show Ext.sinf (decide (0 ≤ Fmt.toK a)) = Ext.pinf
    rw [decide_eq_true ha.le]
    rfl

/-- **C80 (infinite, reported).** A generation that ends with an infinite step size reports `TolXUp`,
unless an eigenvalue is NaN or the tolerance is infinite or NaN. -/
theorem c80_infinite_reported (hl : SaneLibm F64) {s : NextCall n F64}
    (h : History.Of env obj o (t ++ [s]) c) (hs : s.Checked) (hz : c.sigma = Flt.inf)
    (hn : ∀ i, Flt.isNaN (c.eigenvalues i) = false) (ht : Flt.lt o.tolXUp Flt.inf = true) :
    .tolXUp ∈ s.reasons := by
  have hv : n ≠ 0 ∧ Flt.lt 0 o.initialStepSize = true ∧ Flt.isNormal o.initialStepSize = true := by
    obtain ⟨w, c0, h0, -⟩ := h
    have := validate_sigma (new_eq_ok h0).1
    exact ⟨this.1, this.2, validate_normal (new_eq_ok h0).1⟩
  obtain ⟨_, h2⟩ := signs hl h
  have hr : ∀ i, Flt.isNaN (c.state.cov.sqrtEigenvalues i i) = false := by
    intro i
    cases hx : Flt.isNaN (c.state.cov.sqrtEigenvalues i i) with
    | false => rfl
    | true =>
      have e : c.eigenvalues i =
        1 * (c.state.cov.sqrtEigenvalues i i * c.state.cov.sqrtEigenvalues i i) := rfl
      have : Flt.isNaN (c.eigenvalues i) = true := by
        rw [e]
        exact Ext.isNaN_mul_right (Ext.isNaN_mul_left hx)
      rw [hn i] at this
      cases this
  have hpos : ∀ i, 0 < val (c.state.cov.sqrtEigenvalues i i) := by
    intro i
    rcases h2 i with hx | hx
    · have := hr i
      rw [show Flt.isNaN (c.state.cov.sqrtEigenvalues i i) = true from hx] at this
      cases this
    · have h1 : Flt.lt (0 : F64) (Flt.ofRat (1 / 2 ^ 537)) = true := tiny_pos
      have h1 := (lt_iff.mp h1).2.2
      rw [f64_val_zero] at h1
      exact lt_of_lt_of_le h1 (le_iff.mp hx).2.2
  rw [c25_tolXUp h hs hr]
  obtain ⟨k, -, hk⟩ := Finset.exists_max_image (Finset.univ : Finset (Fin n))
    (fun i => val (c.state.cov.sqrtEigenvalues i i)) ⟨⟨0, Nat.pos_of_ne_zero hv.1⟩, Finset.mem_univ _⟩
  refine ⟨k, fun i => le_iff.mpr ⟨hr i, hr k, hk i (Finset.mem_univ _)⟩, ?_⟩
  rw [hz, f64_inf_mul (hpos k), f64_inf_div ?_ hv.2.2]
  · exact ht
  · have := (lt_iff.mp hv.2.1).2.2
    rwa [f64_val_zero] at this

end

attribute [local instance] saneLibm

/-- An initial step size near the largest number. -/
def hugeOpts : Options 2 F64 := { saneOpts with initialStepSize := Flt.ofRat (2 ^ 1023) }

/-- An objective function that counts its calls. -/
def countCalls : Obj 2 F64 := { f := fun log _ => Flt.ofNat log.length, log := [] }

/-- The hypotheses of `c80_infinite_reported` are met: the step size overflows in the first
generation. -/
example : SaneLibm F64 ∧ ∃ t c, History.Of (saneEnv 2) countCalls hugeOpts t c ∧
    (t.length == 1 && decide (c.sigma = Flt.inf ∧ ∀ i, Flt.isNaN (c.eigenvalues i) = false) &&
      Flt.lt hugeOpts.tolXUp Flt.inf &&
      t.all fun s => decide (.tolXUp ∈ s.reasons ∧ .invalidFunctionValue ∉ s.reasons ∧
        .posDefCov ∉ s.reasons)) = true := by
  refine ⟨saneLibm_sane, ?_⟩
  exact exists_history (env := saneEnv 2) (obj := countCalls) (o := hugeOpts) [.seq] (fun c t =>
    (t.length == 1 && decide (c.sigma = Flt.inf ∧ ∀ i, Flt.isNaN (c.eigenvalues i) = false) &&
      Flt.lt hugeOpts.tolXUp Flt.inf &&
      t.all fun s => decide (.tolXUp ∈ s.reasons ∧ .invalidFunctionValue ∉ s.reasons ∧
        .posDefCov ∉ s.reasons))) (by decide +kernel) (by decide +kernel)

end Cmaes
