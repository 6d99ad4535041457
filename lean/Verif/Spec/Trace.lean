import Verif.Model.Cmaes

/-!
# Specification vocabulary: executions of a `CMAES` as sequences of `next` calls

An execution is any sequence of the calls a user can make. `run` is a sequence of `next` calls
followed by plotting and printing, so the history of an execution is the list of its `next` calls,
each with the objective calls made during it and what it returned.
-/

namespace Cmaes
variable {n : Nat} {F R : Type} [Flt F]

/-- One call of `next` or `next_parallel`: the objective calls it made (point and value, in the
order in which they were made) and the `TerminationData` it returned, if any. -/
structure NextCall (n : Nat) (F : Type) where
  kind : EvalKind
  calls : List (Vec n F × F)
  result : Option (TerminationData n F)

/-- The call reported `InvalidFunctionValue`. -/
def NextCall.Failed (t : NextCall n F) : Prop :=
  ∃ d, t.result = some d ∧ TerminationReason.invalidFunctionValue ∈ d.reasons

instance (t : NextCall n F) : Decidable t.Failed :=
  match h : t.result with
  | none => .isFalse (by rintro ⟨d, hd, _⟩; simp [h] at hd)
  | some d =>
    if hm : TerminationReason.invalidFunctionValue ∈ d.reasons then
      .isTrue ⟨d, h, hm⟩
    else .isFalse (by rintro ⟨d', hd, h'⟩; simp [h] at hd; subst hd; exact hm h')

/-- The call reported `PosDefCov`. -/
def NextCall.ReportsPosDef (t : NextCall n F) : Prop :=
  ∃ d, t.result = some d ∧ TerminationReason.posDefCov ∈ d.reasons

instance (t : NextCall n F) : Decidable t.ReportsPosDef :=
  match h : t.result with
  | none => .isFalse (by rintro ⟨d, hd, _⟩; simp [h] at hd)
  | some d =>
    if hm : TerminationReason.posDefCov ∈ d.reasons then
      .isTrue ⟨d, h, hm⟩
    else .isFalse (by rintro ⟨d', hd, h'⟩; simp [h] at hd; subst hd; exact hm h')

/-- The calls that are not `next`, `next_parallel`, `run` or `run_parallel`: plotting and
printing. -/
def Op.Quiet : Op → Prop
  | .next _ | .run _ => False
  | _ => True

/-- `Exec env c t c'`: from `c` the user can reach `c'`, and `t` lists the `next` calls made on the
way, oldest first. -/
inductive Exec (env : Env n F R) : CMAES n F R → List (NextCall n F) → CMAES n F R → Prop
  | refl (c : CMAES n F R) : Exec env c [] c
  | next {c c' c'' : CMAES n F R} {t : List (NextCall n F)} {kind : EvalKind}
      {calls : List (Vec n F × F)} {r : Option (TerminationData n F)} :
      Exec env c t c' → c'.next env kind = .ok (c'', r) →
      c''.sampler.obj.log = c'.sampler.obj.log ++ calls →
      Exec env c (t ++ [{ kind, calls, result := r }]) c''
  | quiet {c c' c'' : CMAES n F R} {t : List (NextCall n F)} {op : Op}
      {r : Option (TerminationData n F)} :
      Exec env c t c' → op.Quiet → c'.apply env op = .ok (c'', r) → Exec env c t c''

/-- `c` is reached from a `CMAES` freshly built with options `o` for the objective `obj`, through
the `next` calls `t`. -/
def History.Of (env : Env n F R) (obj : Obj n F) (o : Options n F) (t : List (NextCall n F))
    (c : CMAES n F R) : Prop :=
  ∃ w c0, CMAES.new env w obj o = .ok c0 ∧ Exec env c0 t c

/-- The objective calls of completed generations, i.e. of `next` calls that did not report
`InvalidFunctionValue`, in order. -/
def completedCalls (t : List (NextCall n F)) : List (Vec n F × F) :=
  (t.filter fun s => ¬ s.Failed).flatMap fun s => s.calls

/-- All objective calls, in order. -/
def allCalls (t : List (NextCall n F)) : List (Vec n F × F) := t.flatMap fun s => s.calls

/-- The values in `calls` are what the objective `f` returns when it is called on the points of
`calls`, one after the other, after the calls in `log`. -/
def Faithful (f : List (Vec n F × F) → Vec n F → F) :
    List (Vec n F × F) → List (Vec n F × F) → Prop
  | _, [] => True
  | log, (x, v) :: calls => v = f log x ∧ Faithful f (log ++ [(x, v)]) calls

/-- `a` is strictly better than `b`. -/
def Better (mode : Mode) (a b : F) : Prop :=
  match mode with
  | .minimize => Flt.lt a b = true
  | .maximize => Flt.lt b a = true

end Cmaes
