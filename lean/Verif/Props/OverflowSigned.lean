import Verif.Props.SaneSigned
import Verif.Props.Overflow

/-!
# C80: a step size that has vanished or overflowed is reported, with both zeros
-/

set_option linter.unusedSectionVars false

namespace Cmaes
open FltLaws

attribute [local instance] S64.someLibm

section
variable {n : Nat} {R : Type} [Libm S64] {env : Env n S64 R} {obj : Obj n S64} {o : Options n S64}
  {t : List (NextCall n S64)} {c d : CMAES n S64 R}
open S64 (val_erase isNaN_erase)

/-- **C80 (zero, reported, both zeros).** A generation that ends with step size zero, of either sign,
reports `NoEffectCoord`, unless the mean is NaN or the covariance matrix not finite. -/
theorem c80_zero_reported_signed {s : NextCall n S64} (h : History.Of env obj o (t ++ [s]) c)
    (hs : s.Checked) (hz : Flt.feq c.sigma 0 = true) (i : Fin n)
    (hm : Flt.isNaN (c.mean i) = false)
    (hc : ¬ NonFinite (c.covarianceMatrix i i)) : .noEffectCoord ∈ s.reasons := by
  refine (c25_noEffectCoord h hs).mpr ⟨i, ?_⟩
  have hz' : (c.sigma.erase : F64) = 0 := by
    rcases S64.nanOrEq_zero.mp (.inr hz : NaNOrEq 0 c.sigma) with hx | hx
    · have := (feq_iff.mp hz).1
      rw [isNaN_erase] at this
      exact absurd (this.symm.trans hx) (by decide)
    · exact hx
  have h0 : (Flt.ofRat (2 / 10) * 0 : F64) = 0 := fifth_zero
  have h1 : (0 : F64) * (c.covarianceMatrix i i).erase = 0 :=
    (Ext.zero_mul_nanOr (.inr rfl)).resolve_left (Ext.zero_mul_finite hc)
  have e : (c.mean i + Flt.ofRat (2 / 10) * c.sigma * c.covarianceMatrix i i).erase =
      (c.mean i).erase := by
    rw [S64.erase_add', S64.erase_mul', S64.erase_mul', S64.erase_ofRat, hz']
    show (c.mean i).erase + (Flt.ofRat (2 / 10) : F64) * 0 * (c.covarianceMatrix i i).erase = _
    rw [h0, h1]
    refine (Ext.add_nanOr (x := (c.mean i).erase) (.inr rfl) (.inr rfl)).resolve_left fun hn => ?_
    rw [Ext.isNaN_add_zero] at hn
    exact absurd (hm.symm.trans hn) (by decide)
  have hf : Flt.feq (c.mean i).erase (c.mean i).erase = true := feq_iff.mpr ⟨hm, hm, rfl⟩
  show Ext.feq (c.mean i).erase
    (c.mean i + Flt.ofRat (2 / 10) * c.sigma * c.covarianceMatrix i i).erase = true
  rw [e]
  exact hf

/-- **C80 (infinite, reported, both zeros).** A generation that ends with an infinite step size
reports `TolXUp`, unless an eigenvalue is NaN or the tolerance is infinite or NaN. -/
theorem c80_infinite_reported_signed (hl : SaneLibm S64) {s : NextCall n S64}
    (h : History.Of env obj o (t ++ [s]) c) (hs : s.Checked) (hz : c.sigma = Flt.inf)
    (hn : ∀ i, Flt.isNaN (c.eigenvalues i) = false) (ht : Flt.lt o.tolXUp Flt.inf = true) :
    .tolXUp ∈ s.reasons := by
  have hv : n ≠ 0 ∧ Flt.lt 0 o.initialStepSize = true ∧ Flt.isNormal o.initialStepSize = true := by
    obtain ⟨w, c0, h0, -⟩ := h
    have := validate_sigma (new_eq_ok h0).1
    exact ⟨this.1, this.2, validate_normal (new_eq_ok h0).1⟩
  obtain ⟨_, h2⟩ := S64.signs hl h
  have hr : ∀ i, Flt.isNaN (c.state.cov.sqrtEigenvalues i i) = false := by
    intro i
    cases hx : Flt.isNaN (c.state.cov.sqrtEigenvalues i i) with
    | false => rfl
    | true =>
      have e : c.eigenvalues i =
        1 * (c.state.cov.sqrtEigenvalues i i * c.state.cov.sqrtEigenvalues i i) := rfl
      have : Flt.isNaN (c.eigenvalues i) = true := by
        rw [e, isNaN_erase, S64.one_mul_erase, S64.erase_mul']
        exact Ext.isNaN_mul_left hx
      rw [hn i] at this
      cases this
  have hpos : ∀ i, 0 < val (c.state.cov.sqrtEigenvalues i i) := by
    intro i
    rcases h2 i with hx | hx
    · have := hr i
      rw [show Flt.isNaN (c.state.cov.sqrtEigenvalues i i) = true from hx] at this
      cases this
    · exact lt_of_lt_of_le S64.tiny_pos' (le_iff.mp hx).2.2
  rw [c25_tolXUp h hs hr]
  obtain ⟨k, -, hk⟩ := Finset.exists_max_image (Finset.univ : Finset (Fin n))
    (fun i => val (c.state.cov.sqrtEigenvalues i i)) ⟨⟨0, Nat.pos_of_ne_zero hv.1⟩, Finset.mem_univ _⟩
  refine ⟨k, fun i => le_iff.mpr ⟨hr i, hr k, hk i (Finset.mem_univ _)⟩, ?_⟩
  have h0 : 0 < val o.initialStepSize := by
    have := (lt_iff.mp hv.2.1).2.2
    rwa [S64.val_zero'] at this
  have e : (c.sigma * c.state.cov.sqrtEigenvalues k k / o.initialStepSize).erase = Ext.pinf := by
    rw [S64.erase_div_pos h0, S64.erase_mul', hz]
    have h1 : (Flt.inf : F64) * (c.state.cov.sqrtEigenvalues k k).erase = Flt.inf :=
      f64_inf_mul (hpos k)
    have h2 : (Flt.inf : F64) / o.initialStepSize.erase = Flt.inf := f64_inf_div h0 hv.2.2
    exact (congrArg (fun x => Ext.div x o.initialStepSize.erase) h1).trans h2
  show Ext.lt o.tolXUp.erase
    (c.sigma * c.state.cov.sqrtEigenvalues k k / o.initialStepSize).erase = true
  rw [e]
  exact ht

end

/-! ### The hypotheses are met -/

section
attribute [local instance] signedLibm

/-- An initial step size near the largest number. -/
def hugeSignedOpts : Options 2 S64 := { signedOpts with initialStepSize := Flt.ofRat (2 ^ 1023) }

/-- An objective function that counts its calls. -/
def countSigned : Obj 2 S64 := { f := fun log _ => Flt.ofNat log.length, log := [] }

/-- The hypotheses of `c80_infinite_reported_signed` are met. -/
example : SaneLibm S64 ∧ ∃ t c, History.Of (signedEnv 2) countSigned hugeSignedOpts t c ∧
    (t.length == 1 && decide (c.sigma = Flt.inf ∧ ∀ i, Flt.isNaN (c.eigenvalues i) = false) &&
      Flt.lt hugeSignedOpts.tolXUp Flt.inf && t.all fun s => decide s.Checked) = true := by
  refine ⟨signedLibm_sane, ?_⟩
  exact exists_history (env := signedEnv 2) (obj := countSigned) (o := hugeSignedOpts) [.seq]
    (fun c t => (t.length == 1 &&
      decide (c.sigma = Flt.inf ∧ ∀ i, Flt.isNaN (c.eigenvalues i) = false) &&
      Flt.lt hugeSignedOpts.tolXUp Flt.inf && t.all fun s => decide s.Checked))
    (by decide +kernel) (by decide +kernel)

end

section
attribute [local instance] signedShrinkLibm

/-- And the hypotheses of `c80_zero_reported_signed`. -/
example : ∃ t c, History.Of (F := S64) (signedEnv 2) signedSphere signedOpts t c ∧
    decide (Flt.feq c.sigma 0 = true ∧ Flt.isNaN (c.mean 0) = false ∧
      Flt.isNaN (c.covarianceMatrix 0 0) = false ∧ Flt.isInf (c.covarianceMatrix 0 0) = false ∧
      t.length = 2 ∧ ∀ s ∈ t, s.Checked) = true :=
  exists_history (env := signedEnv 2) (obj := signedSphere) (o := signedOpts) [.seq, .par]
    (fun c t => decide (Flt.feq c.sigma 0 = true ∧ Flt.isNaN (c.mean 0) = false ∧
      Flt.isNaN (c.covarianceMatrix 0 0) = false ∧ Flt.isInf (c.covarianceMatrix 0 0) = false ∧
      t.length = 2 ∧ ∀ s ∈ t, s.Checked)) (by decide +kernel) (by decide +kernel)

end

end Cmaes
