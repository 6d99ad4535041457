import Verif.Spec.Trace

/-!
# Specification vocabulary: comparing two runs
-/

namespace Cmaes

/-- Two computations have the same outcome up to `P`: both return values related by `P`, or both
panic in the same way, or neither ends. -/
inductive Outcome.Rel {α β : Type} (P : α → β → Prop) : Outcome α → Outcome β → Prop
  | ok {a : α} {b : β} : P a b → Outcome.Rel P (.ok a) (.ok b)
  | panic (p : Panic) : Outcome.Rel P (.panic p) (.panic p)
  | diverge : Outcome.Rel P .diverge .diverge

variable {n : Nat} {F R : Type} [Flt F]

/-- The calls of a run with all values transformed by `φ`. -/
def mapCalls (φ : F → F) (l : List (Vec n F × F)) : List (Vec n F × F) :=
  l.map fun e => (e.1, φ e.2)

/-- `f'` is the objective that calls `f` and applies `φ` to its value. (An objective is a function
of all its earlier calls and of the point; `f'` has seen the transformed values.) -/
def Transformed (φ : F → F) (f f' : List (Vec n F × F) → Vec n F → F) : Prop :=
  ∀ log x, f' (mapCalls φ log) x = φ (f log x)

/-- The objective has no state: its value depends on the point only. -/
def Stateless (f : List (Vec n F × F) → Vec n F → F) : Prop := ∀ log x, f log x = f [] x

/-- A `CMAES` without the record of the objective calls made so far (a specification device: the
record is the state of the objective function, which an objective without state does not have). -/
def CMAES.eraseLog (c : CMAES n F R) : CMAES n F R :=
  { c with sampler := { c.sampler with obj := { c.sampler.obj with log := [] } } }

/-- The same user call with sequential evaluation. -/
def Op.sequential : Op → Op
  | .next _ => .next .seq
  | .run _ => .run .seq
  | op => op

/-- `b` is `-a`, except perhaps for the sign of a zero. -/
def Opposite (a b : F) : Prop := b = -a ∨ (Flt.feq a 0 = true ∧ Flt.feq b 0 = true)

/-- An individual with the negated value. -/
def Individual.negated (x : Individual n F) : Individual n F := { x with value := -x.value }

/-- Termination data with negated values. -/
def TerminationData.negated (d : TerminationData n F) : TerminationData n F :=
  { d with
    currentBest := d.currentBest.map Individual.negated
    overallBest := d.overallBest.map Individual.negated }

/-- A `next` call with negated values. -/
def NextCall.negated (s : NextCall n F) : NextCall n F :=
  { kind := s.kind, calls := mapCalls (fun v => -v) s.calls,
    result := s.result.map TerminationData.negated }

/-- The options for minimizing `-f` that correspond to options `o` for maximizing `f`. -/
def Options.mirrored (o : Options n F) : Options n F :=
  { o with mode := .minimize, funTarget := o.funTarget.map fun v => -v }

end Cmaes
