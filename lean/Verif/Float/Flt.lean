import Mathlib.Data.Rat.Defs
import Mathlib.Data.Rat.Floor
import Mathlib.Data.EReal.Operations

/-!
# The operations of `f64` used by the crate

`Flt F` lists the `f64` operations that occur in `/repo/src`. The model is written over an
arbitrary `F` with these operations; `Verif.Float.Bin64` instantiates it with IEEE-754 binary64
(rounding included) and `Verif.Float.XR` with exact real arithmetic.

`FltLaws F` lists the laws that the generic theorems use. Both instances are proved lawful.
-/

namespace Cmaes

/-- The part of `f64` that Rust takes from the platform's mathematical library. IEEE does not fix
the results of these functions (except `sqrt`), so for binary64 they are left arbitrary. -/
class Libm (F : Type) where
  /-- `f64::sqrt` -/
  sqrt : F → F
  /-- `f64::exp` -/
  exp : F → F
  /-- `f64::ln` -/
  ln : F → F
  /-- `f64::powf` -/
  powf : F → F → F

/-- The `f64` operations used by the crate. -/
class Flt (F : Type) extends Add F, Sub F, Mul F, Div F, Neg F where
  /-- `f64::NAN` -/
  nan : F
  /-- `f64::INFINITY` -/
  inf : F
  /-- The value of a decimal literal, or of `n as f64` for an integer `n`: the nearest float. -/
  ofRat : ℚ → F
  /-- `f64::is_nan` -/
  isNaN : F → Bool
  /-- `f64::is_infinite` -/
  isInf : F → Bool
  /-- `f64::is_normal` -/
  isNormal : F → Bool
  /-- `<` -/
  lt : F → F → Bool
  /-- `<=` -/
  le : F → F → Bool
  /-- `==` -/
  feq : F → F → Bool
  /-- `f64::abs` -/
  abs : F → F
  /-- `f64::floor` -/
  floor : F → F
  /-- `f64::ceil` -/
  ceil : F → F
  /-- `x as usize` (saturating; NaN gives 0) -/
  toUsize : F → Nat
  /-- `f64::sqrt` -/
  sqrt : F → F
  /-- `f64::exp` -/
  exp : F → F
  /-- `f64::ln` -/
  ln : F → F
  /-- `f64::powf` -/
  powf : F → F → F

namespace Flt
variable {F : Type} [Flt F]

/-- A numeric literal. -/
instance (priority := low) instOfNat (n : Nat) : OfNat F n := ⟨Flt.ofRat n⟩

/-- `n as f64`. -/
def ofNat (n : Nat) : F := Flt.ofRat n

/-- `f64::min`: the other operand if one is NaN, else the smaller one. -/
def fmin (a b : F) : F :=
  if isNaN a then b else if isNaN b then a else if lt b a then b else a

/-- `f64::max`: the other operand if one is NaN, else the larger one. -/
def fmax (a b : F) : F :=
  if isNaN a then b else if isNaN b then a else if lt a b then b else a

/-- `f64::partial_cmp`. -/
def partialCmp? (a b : F) : Option Ordering :=
  if lt a b then some .lt
  else if lt b a then some .gt
  else if feq a b then some .eq
  else none

/-- `f64::powi` for a non-negative exponent: compiler-rt's `__powidf2`, i.e. repeated squaring,
least significant bit first. -/
def powiLoop : Nat → F → F → Nat → F
  | 0, _, r, _ => r
  | fuel + 1, a, r, b =>
    let r := if b % 2 = 1 then r * a else r
    let b := b / 2
    if b = 0 then r else powiLoop fuel (a * a) r b

/-- `x.powi(n)` for `n ≥ 0` (the only exponents in the crate). -/
def powi (x : F) (n : Nat) : F := powiLoop (n + 1) x 1 n

end Flt

/-- The laws used by the generic theorems. `val` is the extended real number denoted by a float
that is not NaN. There may be two zeros, so `val` is injective only away from NaN and zero. -/
class FltLaws (F : Type) [Flt F] where
  /-- The extended real denoted by a non-NaN value. -/
  val : F → EReal
  val_inj_ne : ∀ {a b : F}, Flt.isNaN a = false → Flt.isNaN b = false → val a = val b → val a ≠ 0 →
    a = b
  isNaN_eq : ∀ {a : F}, Flt.isNaN a = true → a = Flt.nan
  isNaN_nan : Flt.isNaN (Flt.nan : F) = true
  isNaN_inf : Flt.isNaN (Flt.inf : F) = false
  val_inf : val (Flt.inf : F) = ⊤
  lt_iff : ∀ {a b : F}, Flt.lt a b = true ↔
    Flt.isNaN a = false ∧ Flt.isNaN b = false ∧ val a < val b
  le_iff : ∀ {a b : F}, Flt.le a b = true ↔
    Flt.isNaN a = false ∧ Flt.isNaN b = false ∧ val a ≤ val b
  feq_iff : ∀ {a b : F}, Flt.feq a b = true ↔
    Flt.isNaN a = false ∧ Flt.isNaN b = false ∧ val a = val b
  isNaN_ofRat : ∀ q : ℚ, Flt.isNaN (Flt.ofRat q : F) = false
  val_ofRat_mono : ∀ {p q : ℚ}, p ≤ q → val (Flt.ofRat p : F) ≤ val (Flt.ofRat q : F)
  val_ofNat : ∀ n : Nat, n ≤ 2 ^ 53 → val (Flt.ofRat (n : ℚ) : F) = ((n : ℝ) : EReal)
  isNaN_neg : ∀ a : F, Flt.isNaN (-a) = Flt.isNaN a
  val_neg : ∀ a : F, val (-a) = -val a
  sub_def : ∀ a b : F, a - b = a + -b
  neg_neg : ∀ a : F, - -a = a
  abs_neg : ∀ a : F, Flt.abs (-a) = Flt.abs a
  abs_zero : ∀ {a : F}, Flt.isNaN a = false → val a = 0 → Flt.abs a = 0
  half_zero : ∀ {a : F}, Flt.isNaN a = false → val a = 0 → val (a / 2) = 0
  /-- The sign of a zero factor or numerator changes at most the sign of a zero. -/
  mul_zeros : ∀ {a b b' : F}, Flt.isNaN b = false → Flt.isNaN b' = false → val b = 0 → val b' = 0 →
    Flt.isNaN (a * b) = Flt.isNaN (a * b') ∧ val (a * b) = val (a * b')
  div_zeros : ∀ {a b b' : F}, Flt.isNaN b = false → Flt.isNaN b' = false → val b = 0 → val b' = 0 →
    Flt.isNaN (b / a) = Flt.isNaN (b' / a) ∧ val (b / a) = val (b' / a)
  neg_div : ∀ a b : F, -a / b = -(a / b)
  /-- The sum of the negated numbers is the negated sum, except perhaps for the sign of a zero. -/
  val_neg_add : ∀ a b : F, val (-a + -b) = -val (a + b)
  add_comm : ∀ a b : F, a + b = b + a
  isNaN_abs : ∀ a : F, Flt.isNaN (Flt.abs a) = Flt.isNaN a
  val_abs : ∀ {a : F}, Flt.isNaN a = false → val (Flt.abs a) = max (val a) (-val a)
  /-- `NaN` is absorbing for the sum. -/
  isNaN_add_left : ∀ {a b : F}, Flt.isNaN a = true → Flt.isNaN (a + b) = true
  /-- A sum is NaN if a summand is, or for infinities of opposite sign. -/
  isNaN_add : ∀ {a b : F}, Flt.isNaN (a + b) = true ↔ Flt.isNaN a = true ∨ Flt.isNaN b = true ∨
    (val a = ⊤ ∧ val b = ⊥) ∨ (val a = ⊥ ∧ val b = ⊤)
  /-- Division by one. -/
  div_one : ∀ a : F, a / 1 = a
  /-- Halving a number gives a number. -/
  isNaN_half : ∀ a : F, Flt.isNaN (a / 2) = Flt.isNaN a
  /-- An infinite summand makes the sum infinite or NaN. -/
  add_top : ∀ {a b : F}, Flt.isNaN a = false → val a = ⊤ → Flt.isNaN (a + b) = false →
    val (a + b) = ⊤
  /-- Addition is monotone (rounding included). -/
  add_le_add_right : ∀ {a b c : F}, Flt.isNaN (a + c) = false → Flt.isNaN (b + c) = false →
    val a ≤ val b → val (a + c) ≤ val (b + c)
  /-- `a - a` is zero unless it is NaN. -/
  add_neg_self : ∀ {a : F}, Flt.isNaN (a + -a) = false → val (a + -a) = 0
  /-- Products of small integers are exact. -/
  mul_ofNat : ∀ a b : Nat, a ≤ 2 ^ 53 → b ≤ 2 ^ 53 → a * b ≤ 2 ^ 53 →
    (Flt.ofRat (a : ℚ) * Flt.ofRat (b : ℚ) : F) = Flt.ofRat ((a * b : ℕ) : ℚ)
  /-- The rounding of a quotient of small integers does not cross an integer. -/
  toUsize_ceil_div : ∀ a b : Nat, a < 2 ^ 53 → 0 < b → b ≤ 2 ^ 53 →
    Flt.toUsize (Flt.ceil (Flt.ofRat (a : ℚ) / Flt.ofRat (b : ℚ) : F)) = ⌈(a : ℚ) / (b : ℚ)⌉₊
  /-- `(g as f64 * 0.3) as usize` is the exact `⌊0.3 g⌋`. -/
  three_tenths : ∀ g : Nat, g ≤ 2 ^ 40 →
    Flt.toUsize (Flt.ofRat (g : ℚ) * Flt.ofRat (3 / 10) : F) = 3 * g / 10
  /-- `(e as f64 * 1.05) as usize` is not below `e`. -/
  five_percent : ∀ e : Nat, e ≤ 2 ^ 53 →
    e ≤ Flt.toUsize (Flt.ofRat (e : ℚ) * Flt.ofRat (105 / 100) : F)
  /-- Adding zero changes nothing. -/
  zero_add : ∀ {a : F}, Flt.isNaN a = false → val (0 + a) = val a
  /-- Zero times a number is zero unless it is NaN. -/
  zero_mul : ∀ {a : F}, Flt.isNaN (0 * a) = false → val (0 * a) = 0
  /-- Unless the sum overflows, the rounded mean of two numbers lies between them. -/
  mean_between : ∀ {a b : F}, Flt.isNaN a = false → Flt.isNaN b = false → val a ≤ val b →
    Flt.isNaN (a + b) = false → Flt.isInf (a + b) = false →
    val a ≤ val ((a + b) / 2) ∧ val ((a + b) / 2) ≤ val b
  isInf_iff : ∀ {a : F}, Flt.isInf a = true ↔ Flt.isNaN a = false ∧ (val a = ⊤ ∨ val a = ⊥)
  /-- Normal numbers are neither NaN nor infinite nor zero. -/
  isNormal_imp : ∀ {a : F}, Flt.isNormal a = true →
    Flt.isNaN a = false ∧ val a ≠ ⊤ ∧ val a ≠ ⊥ ∧ val a ≠ 0

/-- The additional laws of number systems with a single zero. -/
class OneZero (F : Type) [Flt F] extends FltLaws F where
  val_inj : ∀ {a b : F}, Flt.isNaN a = false → Flt.isNaN b = false → val a = val b → a = b
  neg_add : ∀ a b : F, -(a + b) = -a + -b

end Cmaes
