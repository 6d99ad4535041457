import Verif.Spec.Format
import Verif.Float.Bin64

/-!
# Reading the printed table

What a reader makes of the text. Independent of the code that prints it.
-/

namespace Cmaes.Printed

/-- Only spaces. -/
def Blank (cs : List Char) : Prop := ∀ c ∈ cs, c = ' '

/-- The cell shows the natural number `k` and nothing else but spaces around it. -/
def ShowsCount (cell : List Char) (k : Nat) : Prop :=
  ∃ l ds r, cell = l ++ ds ++ r ∧ Blank l ∧ Blank r ∧ ds ≠ [] ∧ (∀ d ∈ ds, IsDigit d) ∧
    number ds = k

/-- The text is what is printed for `x`: a number in scientific notation with `p` decimals that is
closest to `x`, up to half a unit of the last decimal, or the name of a value that is not finite. -/
def NumberText (p : Nat) (text : List Char) : F64 → Prop
  | .nan => text = "NaN".toList
  | .pinf => text = "inf".toList
  | .ninf => text = "-inf".toList
  | .fin a => ∃ v e, Reads p text v e ∧ |v - a.1| ≤ 10 ^ e / 10 ^ p / 2

/-- The cell shows the number `x` and nothing else but spaces around it. -/
def ShowsNumber (p : Nat) (cell : List Char) (x : F64) : Prop :=
  ∃ l text r, cell = l ++ text ++ r ∧ Blank l ∧ Blank r ∧ NumberText p text x

/-- The cell shows the number, or it is empty if there is none. -/
def ShowsOptional (p : Nat) (cell : List Char) : Option F64 → Prop
  | none => Blank cell
  | some x => ShowsNumber p cell x

/-- The number is printed with an exponent of two digits, or it is not finite. -/
def Short : F64 → Prop
  | .fin a => a.1 = 0 ∨ 10 ^ (-99 : ℤ) ≤ |a.1| ∧ |a.1| ≤ 99 / 10 * 10 ^ 99
  | _ => True

instance (x : F64) : Decidable (Short x) := by
  unfold Short
  split <;> infer_instance

/-- The two lines have the same length, and their column separators are at the same places. -/
def LinedUp (a b : List Char) : Prop :=
  a.length = b.length ∧ ∀ i : Nat, a[i]? = some '|' ↔ b[i]? = some '|'

end Cmaes.Printed
