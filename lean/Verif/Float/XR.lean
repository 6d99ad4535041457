import Verif.Float.ExtLaws
import Mathlib.Analysis.SpecialFunctions.Pow.Real
import Mathlib.Analysis.SpecialFunctions.Log.Basic
import Mathlib.Analysis.SpecialFunctions.Sqrt

/-!
# Exact arithmetic

`XR` is the model's number type without rounding: real numbers, the infinities and NaN, with the
true `sqrt`, `exp`, `ln` and power functions, and IEEE's conventions for infinities, NaN and
division by zero.
-/

namespace Cmaes

noncomputable instance : Fmt ℝ ℝ where
  toK := id
  rnd := .fin
  neg x := -x
  isNormal x := decide (x ≠ 0)

/-- Exact arithmetic with infinities and NaN. -/
abbrev XR := Ext ℝ

noncomputable instance : LawfulFmt ℝ ℝ where
  emb := RingHom.id ℝ
  emb_lt := Iff.rfl
  toK_inj h := h
  rnd_toK _ := rfl
  rnd_ne_nan _ := by intro h; cases h
  toK_neg _ := rfl
  rnd_neg _ := rfl
  rnd_mono {x y} h := by
    show ((x : ℝ) : EReal) ≤ ((y : ℝ) : EReal)
    exact_mod_cast h
  exact_nat n _ := ⟨(n : ℝ), rfl⟩
  rnd_div_nat a b _ _ _ := by
    refine ⟨_, rfl, ?_⟩
    show ⌈(a : ℝ) / b⌉ = _
    rw [← Rat.ceil_cast (α := ℝ)]
    push_cast; rfl
  rnd_three_tenths g _ := by
    refine ⟨_, _, rfl, rfl, ?_⟩
    show ⌊(g : ℝ) * (3 / 10)⌋ = _
    rw [Int.floor_eq_iff]
    have h1 : 10 * (3 * g / 10) ≤ 3 * g := by omega
    have h2 : 3 * g < 10 * (3 * g / 10) + 10 := by omega
    have h1' : ((10 * (3 * g / 10 : ℕ) : ℕ) : ℝ) ≤ ((3 * g : ℕ) : ℝ) := by exact_mod_cast h1
    have h2' : ((3 * g : ℕ) : ℝ) < ((10 * (3 * g / 10) + 10 : ℕ) : ℝ) := by exact_mod_cast h2
    push_cast at h1' h2'
    rw [Int.cast_natCast]
    constructor <;> linarith
  double a c h := by
    injection h with h
    exact h.symm
  isNormal_ne {a} h := by
    have h' : decide ((a : ℝ) ≠ 0) = true := h
    exact of_decide_eq_true h'

/-- The mathematical functions, exactly. `powf` is given for finite operands only (the crate calls
it with finite operands only); other operands give NaN. -/
noncomputable instance : Libm XR where
  sqrt
    | .nan => .nan
    | .ninf => .nan
    | .pinf => .pinf
    | .fin x => if x < 0 then .nan else .fin (Real.sqrt x)
  exp
    | .nan => .nan
    | .ninf => .fin 0
    | .pinf => .pinf
    | .fin x => .fin (Real.exp x)
  ln
    | .nan => .nan
    | .ninf => .nan
    | .pinf => .pinf
    | .fin x => if x < 0 then .nan else if x = 0 then .ninf else .fin (Real.log x)
  powf
    | .fin x, .fin y =>
      if 0 < x then .fin (x ^ y)
      else if x = 0 then
        if y = 0 then .fin 1 else if 0 < y then .fin 0 else .pinf
      else if y = (⌊y⌋ : ℝ) then .fin (x ^ ⌊y⌋) else .nan
    | _, _ => .nan

end Cmaes
