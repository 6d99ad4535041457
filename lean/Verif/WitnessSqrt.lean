import Verif.Witness

/-!
# Concrete runs with a correct square root

As `Verif.Witness`, but the square root is accurate: the integer square root of a number scaled by
a power of four, rounded to binary64.
-/

namespace Cmaes
namespace WitnessSqrt

/-- Newton's iteration for the integer square root, with bounded fuel. -/
def isqrt : Nat → Nat → Nat → Nat
  | 0, _, x => x
  | fuel + 1, m, x =>
    let y := (x + m / x) / 2
    if x ≤ y then x else isqrt fuel m y

/-- The square root of a rational number, to about 200 binary digits after the point. -/
def sqrtRat (q : ℚ) : ℚ :=
  let m := q.num.toNat * q.den * 4 ^ 200
  isqrt 1000 m (2 ^ (m.log2 / 2 + 1)) / (q.den * 2 ^ 200)

/-- Square root; the other functions are simple stand-ins. -/
@[reducible] def libm : Libm F64 where
  sqrt
    | .fin q => if q.1 < 0 then .nan else Bin64.rnd (sqrtRat q.1)
    | .pinf => .pinf
    | _ => .nan
  exp _ := Ext.fin ⟨1, by decide +kernel⟩
  ln x := x
  powf x _ := x

attribute [scoped instance] libm

/-- A generator that walks through a short list of numbers. -/
def rng : RngOps Nat F64 where
  seed s := s
  normal r := (Flt.ofRat (([1, -2, 3, -1/2, 1/4, 2, -3].getD (r % 7) 0 : ℚ)), r + 1)
  unit r := (Flt.ofRat (1/2), r + 1)
  u64 r := (r, r + 1)
  uniform lo _ r := (lo, r + 1)

/-- An environment. -/
def wenv (n : Nat) : Env n F64 Nat where
  rng := rng
  restartRng := rng
  eigen m := some (Mat.one, m.diag)
  clock k := k
  sched _ := Witness.reverseSched
  redTree _ := .leaf
  medianNaN _ := .ok Flt.nan
  randomSeed := 5
  resampleFuel := 20
  runFuel := 20
  restartFuel := 20

/-- The sphere function. -/
def sphere : Obj 2 F64 := { f := fun _ x => x 0 * x 0 + x 1 * x 1, log := [] }

/-- Options for two dimensions and four points per generation. -/
def opts : Options 2 F64 :=
  { Options.new (fun i => if i = 0 then 1 else 2) 1 with populationSize := 4, seed := some 1 }

example : Flt.sqrt (Flt.ofRat (9 / 4) : F64) = Flt.ofRat (3 / 2) := by decide +kernel

end WitnessSqrt
end Cmaes
