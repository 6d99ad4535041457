import Mathlib.Data.Rat.Defs
import Mathlib.Algebra.Order.Ring.Rat

/-!
# Reading printed numbers

What a reader makes of a number in scientific notation. Independent of the code that prints it.
-/

namespace Cmaes.Printed

/-- A decimal digit. -/
def IsDigit (c : Char) : Prop := c ∈ ['0', '1', '2', '3', '4', '5', '6', '7', '8', '9']

/-- The natural number a list of digits stands for, most significant digit first. -/
def number (cs : List Char) : Nat := cs.foldl (fun a c => 10 * a + (c.toNat - '0'.toNat)) 0

/-- `text` is a number in scientific notation: a sign (`' '` or `'-'`), one digit, a point, `p`
digits, the letter `e`, a sign (`'+'` or `'-'`) and at least two digits without needless leading
zeros. The exponent is `e` and the number is `v`. -/
structure Reads (p : Nat) (text : List Char) (v : ℚ) (e : Int) : Prop where
  shape : ∃ (s c : Char) (cs : List Char) (t : Char) (es : List Char),
    text = s :: c :: '.' :: cs ++ 'e' :: t :: es ∧
    (s = ' ' ∨ s = '-') ∧ (∀ d ∈ c :: cs, IsDigit d) ∧ cs.length = p ∧
    (t = '+' ∨ t = '-') ∧ (∀ d ∈ es, IsDigit d) ∧
    2 ≤ es.length ∧ (2 < es.length → es.head? ≠ some '0') ∧
    e = (if t = '-' then -(number es : Int) else number es) ∧
    v = (if s = '-' then -1 else 1) * (number (c :: cs) : ℚ) / 10 ^ p * 10 ^ e

end Cmaes.Printed
