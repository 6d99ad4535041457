import Verif.Model.Basic
import Verif.Float.Bin64
import Mathlib.Data.Nat.Digits.Defs

/-!
# `utils.rs`: `format_num`

Strings are lists of characters.
-/

namespace Cmaes

/-- The decimal digits of a natural number, as `Display` prints them. Used at /repo/src/utils.rs:24
and /repo/src/lib.rs:505-511. -/
def natText (k : Nat) : List Char :=
  if k = 0 then ['0'] else (Nat.digits 10 k).reverse.map Nat.digitChar

/-- `Display` of an `i32`. Used at /repo/src/utils.rs:19,24. -/
def intText (z : Int) : List Char :=
  if z < 0 then '-' :: natText z.natAbs else natText z.natAbs

/-- The value of a decimal digit. For the parser used at /repo/src/utils.rs:22. -/
def digitValue (c : Char) : Option Nat :=
  if '0'.toNat ≤ c.toNat ∧ c.toNat ≤ '9'.toNat then some (c.toNat - '0'.toNat) else none

/-- Parses a non-empty list of decimal digits. For the parser used at /repo/src/utils.rs:22. -/
def parseNat : List Char → Option Nat
  | [] => none
  | cs => cs.foldl (fun acc c => do
      let a ← acc
      let d ← digitValue c
      some (10 * a + d)) (some 0)

/-- Parses an optional sign and a non-empty list of decimal digits. For the parser used at
/repo/src/utils.rs:22. -/
def parseSigned : List Char → Option Int
  | '-' :: cs => (parseNat cs).map fun k : Nat => -(k : Int)
  | '+' :: cs => (parseNat cs).map Int.ofNat
  | cs => (parseNat cs).map Int.ofNat

/-- `str::parse::<i32>`; `none` is an error. Used at /repo/src/utils.rs:22. -/
def parseInt (cs : List Char) : Option Int :=
  (parseSigned cs).filter fun z => decide (-2 ^ 31 ≤ z ∧ z < 2 ^ 31)

/-- The decimal significand with `p + 1` digits and the exponent of a number `q ≥ 0`: `q` is about
`(fst / 10^p) * 10^snd`. Rust's float formatting is exact and rounds ties to even. Used at
/repo/src/utils.rs:19. -/
def decimal (p : Nat) (q : ℚ) : Nat × Int :=
  if q = 0 then (0, 0)
  else
    let e := Int.log 10 q
    let d := (roundEven (q / 10 ^ e * 10 ^ p)).toNat
    if d = 10 ^ (p + 1) then (10 ^ p, e + 1) else (d, e)

/-- The digits of `d`, filled up with zeros on the left to `p + 1` digits, with a point after the
first. Used at /repo/src/utils.rs:19. -/
def pointed (p d : Nat) : List Char :=
  let t := List.replicate (p + 1 - (natText d).length) '0' ++ natText d
  t.take 1 ++ '.' :: t.drop 1

/-- `format!("{:.p$e}", q)` for a number `q ≥ 0` and a precision `p ≥ 1`,
`/repo/src/utils.rs:19`. -/
def scientific (p : Nat) (q : ℚ) : List Char :=
  pointed p (decimal p q).1 ++ 'e' :: intText (decimal p q).2

/-- `format!("{:w$}", ...)` for a number: filled up with spaces on the left. Used at
/repo/src/utils.rs:14. -/
def padLeft (w : Nat) (cs : List Char) : List Char := List.replicate (w - cs.length) ' ' ++ cs

/-- `format!("{:+03}", z)`, `/repo/src/utils.rs:24`: the sign, then the digits, with zeros between
up to a width of three. -/
def signedText (z : Int) : List Char :=
  (if z < 0 then '-' else '+') ::
    (List.replicate (2 - (natText z.natAbs).length) '0' ++ natText z.natAbs)

/-- `format_num`, `/repo/src/utils.rs:12-25`. Both zeros print with a space as sign
(`-0.0 >= 0.0`). -/
def formatNum (x : F64) (width : Nat) : Outcome (List Char) :=
  match x with
  | .nan => .ok (padLeft width ['N', 'a', 'N'])
  | .pinf => .ok (padLeft width ['i', 'n', 'f'])
  | .ninf => .ok (padLeft width ['-', 'i', 'n', 'f'])
  | .fin a => do
    let sign := if 0 ≤ a.1 then ' ' else '-'
    let padWidth := max width 8 - 7
    let parts := (scientific padWidth |a.1|).splitOn 'e'
    let digits ← Outcome.unwrap .unwrap parts[0]?
    let exponent ← Outcome.unwrap .unwrap parts[1]?
    let exponent ← Outcome.unwrap .unwrap (parseInt exponent)
    .ok (sign :: digits ++ 'e' :: signedText exponent)

end Cmaes
