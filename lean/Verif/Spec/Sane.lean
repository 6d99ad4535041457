import Verif.Spec.Trace
import Verif.Float.Bin64

/-!
# Specification vocabulary: the mathematical library, and numbers that are not finite
-/

namespace Cmaes

/-- Two facts about `exp` and `sqrt` in binary64: `exp` has no negative values, and the square root
of a positive number is not below that of the smallest one, which is `2^-537`. -/
structure SaneLibm (F : Type) [Flt F] : Prop where
  exp : ∀ x : F, Flt.isNaN (Flt.exp x) = true ∨ Flt.le 0 (Flt.exp x) = true
  sqrt : ∀ x : F, Flt.lt 0 x = true → Flt.le (Flt.ofRat (1 / 2 ^ 537)) (Flt.sqrt x) = true
  sqrt_nan : ∀ x : F, Flt.isNaN x = true → Flt.isNaN (Flt.sqrt x) = true

/-- Not a finite number: NaN or infinite. -/
def NonFinite {F : Type} [Flt F] (x : F) : Prop := Flt.isNaN x = true ∨ Flt.isInf x = true

/-- NaN, or the number `y`. -/
def NaNOr {F : Type} [Flt F] (y x : F) : Prop := Flt.isNaN x = true ∨ x = y

/-- NaN, or a number equal to `y`; the two zeros are equal. -/
def NaNOrEq {F : Type} [Flt F] (y x : F) : Prop := Flt.isNaN x = true ∨ Flt.feq x y = true

end Cmaes
