import Verif.Float.Flt
import Mathlib.Algebra.Order.Floor.Ring
import Mathlib.Algebra.Order.Archimedean.Real.Basic
import Mathlib.Data.EReal.Operations

/-!
# IEEE-style number systems over a format

`Ext α` adds NaN and the infinities to a set `α` of finite values. `Fmt α K` says which exact
numbers (elements of the ordered field `K`) the finite values denote and how an exact result is
rounded. The arithmetic below is IEEE-754's: the exact operation followed by rounding, with the
standard rules for NaN and the infinities. One zero only: `x / 0` behaves as `x / +0`.
-/

namespace Cmaes

/-- Finite values of type `α` extended by NaN and the infinities. -/
inductive Ext (α : Type) where
  | nan
  | ninf
  | pinf
  | fin (a : α)
deriving DecidableEq, Repr

/-- A floating-point format: finite values `α` denoting exact numbers in `K`. -/
class Fmt (α : Type) (K : outParam Type) where
  /-- The exact number denoted by a finite value. -/
  toK : α → K
  /-- Rounding of an exact number. -/
  rnd : K → Ext α
  /-- Negation is exact. -/
  neg : α → α
  /-- `is_normal` on finite values. -/
  isNormal : α → Bool

namespace Ext
variable {α K : Type} [Field K] [LinearOrder K] [FloorRing K] [Fmt α K]

/-- Sign-dependent infinity: `s ≥ 0` gives `+inf`. -/
def sinf (nonneg : Bool) : Ext α := if nonneg then .pinf else .ninf

/-- IEEE addition. -/
def add : Ext α → Ext α → Ext α
  | .nan, _ | _, .nan => .nan
  | .pinf, .ninf | .ninf, .pinf => .nan
  | .pinf, _ | _, .pinf => .pinf
  | .ninf, _ | _, .ninf => .ninf
  | .fin a, .fin b => Fmt.rnd (Fmt.toK a + Fmt.toK b)

/-- IEEE negation. -/
def neg : Ext α → Ext α
  | .nan => .nan
  | .pinf => .ninf
  | .ninf => .pinf
  | .fin a => .fin (Fmt.neg a)

/-- IEEE subtraction. -/
def sub (a b : Ext α) : Ext α := add a (neg b)

/-- infinity times a finite value -/
def infMul (pos : Bool) (b : K) : Ext α :=
  if b = 0 then .nan else sinf (pos == decide (0 < b))

/-- IEEE multiplication. -/
def mul : Ext α → Ext α → Ext α
  | .nan, _ | _, .nan => .nan
  | .pinf, .pinf | .ninf, .ninf => .pinf
  | .pinf, .ninf | .ninf, .pinf => .ninf
  | .pinf, .fin b => infMul true (Fmt.toK b)
  | .ninf, .fin b => infMul false (Fmt.toK b)
  | .fin a, .pinf => infMul true (Fmt.toK a)
  | .fin a, .ninf => infMul false (Fmt.toK a)
  | .fin a, .fin b => Fmt.rnd (Fmt.toK a * Fmt.toK b)

/-- IEEE division (the only zero is `+0`). -/
def div : Ext α → Ext α → Ext α
  | .nan, _ | _, .nan => .nan
  | .pinf, .pinf | .pinf, .ninf | .ninf, .pinf | .ninf, .ninf => .nan
  | .pinf, .fin b => sinf (decide (0 ≤ Fmt.toK b))
  | .ninf, .fin b => sinf (!decide (0 ≤ Fmt.toK b))
  | .fin _, .pinf | .fin _, .ninf => Fmt.rnd (0 : K)
  | .fin a, .fin b =>
    if Fmt.toK b = 0 then
      if Fmt.toK a = 0 then .nan else sinf (decide (0 < Fmt.toK a))
    else Fmt.rnd (Fmt.toK a / Fmt.toK b)

/-- `<` -/
def lt : Ext α → Ext α → Bool
  | .nan, _ | _, .nan => false
  | .pinf, _ => false
  | _, .ninf => false
  | _, .pinf => true
  | .ninf, _ => true
  | .fin a, .fin b => decide (Fmt.toK a < Fmt.toK b)

/-- `<=` -/
def le : Ext α → Ext α → Bool
  | .nan, _ | _, .nan => false
  | .ninf, _ => true
  | _, .pinf => true
  | .pinf, _ => false
  | _, .ninf => false
  | .fin a, .fin b => decide (Fmt.toK a ≤ Fmt.toK b)

/-- `==` -/
def feq : Ext α → Ext α → Bool
  | .pinf, .pinf | .ninf, .ninf => true
  | .fin a, .fin b => decide (Fmt.toK a = Fmt.toK b)
  | _, _ => false

/-- `is_nan` -/
def isNaN : Ext α → Bool
  | .nan => true
  | _ => false

/-- `is_infinite` -/
def isInf : Ext α → Bool
  | .pinf | .ninf => true
  | _ => false

/-- `is_normal` -/
def isNormal : Ext α → Bool
  | .fin a => Fmt.isNormal a
  | _ => false

/-- `abs` -/
def abs : Ext α → Ext α
  | .nan => .nan
  | .pinf | .ninf => .pinf
  | .fin a => if Fmt.toK a < 0 then .fin (Fmt.neg a) else .fin a

/-- `floor` -/
def floor : Ext α → Ext α
  | .fin a => Fmt.rnd ((⌊Fmt.toK a⌋ : ℤ) : K)
  | x => x

/-- `ceil` -/
def ceil : Ext α → Ext α
  | .fin a => Fmt.rnd ((⌈Fmt.toK a⌉ : ℤ) : K)
  | x => x

/-- `as usize` on a 64-bit target: truncation, saturating, NaN to 0. -/
def toUsize : Ext α → Nat
  | .nan | .ninf => 0
  | .pinf => 2 ^ 64 - 1
  | .fin a => min (2 ^ 64 - 1) (⌊Fmt.toK a⌋).toNat

instance instFlt [Libm (Ext α)] : Flt (Ext α) where
  add := add
  sub := sub
  mul := mul
  div := div
  neg := neg
  nan := .nan
  inf := .pinf
  ofRat q := Fmt.rnd (q : K)
  isNaN := isNaN
  isInf := isInf
  isNormal := isNormal
  lt := lt
  le := le
  feq := feq
  abs := abs
  floor := floor
  ceil := ceil
  toUsize := toUsize
  sqrt := Libm.sqrt
  exp := Libm.exp
  ln := Libm.ln
  powf := Libm.powf

end Ext
end Cmaes
