import Verif.Lemmas.History
import Verif.Float.Bin64

/-!
# Concrete runs in binary64

Small concrete configurations whose runs are computed by the kernel. They are used to show that
the hypotheses of theorems are met by real executions and to exhibit violations of documented
behaviour. The mathematical functions are replaced by simple ones (`Libm F64` is arbitrary in all
theorems).
-/

namespace Cmaes

/-- Checks the value of an outcome. -/
def Outcome.check {α : Type} (x : Outcome α) (p : α → Bool) : Bool :=
  match x with
  | .ok a => p a
  | _ => false

theorem Outcome.of_check {α : Type} {x : Outcome α} {p : α → Bool} (h : x.check p = true) :
    ∃ a, x = .ok a ∧ p a = true := by
  cases x with
  | ok a => exact ⟨a, rfl, h⟩
  | _ => simp [Outcome.check] at h

section
variable {n : Nat} {F R : Type} [Flt F]

/-- A sequence of `next` calls with their record. -/
def CMAES.nexts (env : Env n F R) :
    List EvalKind → CMAES n F R → Outcome (CMAES n F R × List (NextCall n F))
  | [], c => .ok (c, [])
  | kind :: kinds, c => do
    let (c', r) ← c.next env kind
    let (c'', t) ← CMAES.nexts env kinds c'
    .ok (c'', { kind, calls := c'.sampler.obj.log.drop c.sampler.obj.log.length, result := r } :: t)

theorem nexts_exec [FltLaws F] {env : Env n F R} {kinds : List EvalKind} {c c' : CMAES n F R}
    {t : List (NextCall n F)} (h : c.nexts env kinds = .ok (c', t)) : Exec env c t c' := by
  induction kinds generalizing c t with
  | nil =>
    simp only [CMAES.nexts, Outcome.ok.injEq, Prod.mk.injEq] at h
    obtain ⟨rfl, rfl⟩ := h
    exact .refl _
  | cons k kinds ih =>
    simp only [CMAES.nexts, Outcome.bind_eq_ok] at h
    obtain ⟨⟨c1, r⟩, h1, ⟨c2, t'⟩, h2, h3⟩ := h
    simp only [Outcome.ok.injEq, Prod.mk.injEq] at h3
    obtain ⟨rfl, rfl⟩ := h3
    obtain ⟨calls, hl⟩ := next_log h1
    have e : c1.sampler.obj.log.drop c.sampler.obj.log.length = calls := by rw [hl]; simp
    have := (Exec.next (.refl c) h1 hl).trans (ih h2)
    rw [e]
    simpa using this

/-- The conclusion of a computed sequence of `next` calls. -/
theorem exists_history [FltLaws F] {env : Env n F R} {obj : Obj n F} {o : Options n F}
    (kinds : List EvalKind) (p : CMAES n F R → List (NextCall n F) → Bool)
    (hv : CMAES.validate o = none)
    (h : ((CMAES.create env World.init obj o).nexts env kinds).check (fun x => p x.1 x.2) = true) :
    ∃ t c, History.Of env obj o t c ∧ p c t = true := by
  obtain ⟨⟨c, t⟩, h1, h2⟩ := Outcome.of_check h
  exact ⟨t, c, ⟨World.init, _, by simp only [CMAES.new, hv], nexts_exec h1⟩, h2⟩

end

namespace Witness

/-- Simple stand-ins for the mathematical library. -/
@[reducible] def libm : Libm F64 where
  sqrt x := x
  exp _ := Ext.fin ⟨1, by decide +kernel⟩
  ln x := x
  powf x _ := x

attribute [scoped instance] libm

/-- A generator that walks through a short list of numbers. -/
def rng : RngOps Nat F64 where
  seed s := s
  normal r := (Flt.ofRat (([1, -2, 3, -1/2, 1/4, 2, -3].getD (r % 7) 0 : ℚ)), r + 1)
  unit r := (Flt.ofRat (1/2), r + 1)
  u64 r := (r, r + 1)
  uniform lo _ r := (lo, r + 1)

/-- A schedule that evaluates a batch in reverse order. -/
def reverseSched : Sched where
  order m := (List.range m).reverse
  perm _ := List.reverse_perm _
  extra := 1

/-- An environment. -/
def wenv (n : Nat) : Env n F64 Nat where
  rng := rng
  restartRng := rng
  eigen m := some (Mat.one, m.diag)
  clock k := k
  sched _ := reverseSched
  redTree _ := .leaf
  medianNaN _ := .ok Flt.nan
  randomSeed := 5
  resampleFuel := 20
  runFuel := 20
  restartFuel := 20

/-- An environment in which the eigendecomposition always fails. -/
def noEigen : Env 2 F64 Nat := { wenv 2 with eigen := fun _ => none }

/-- The sphere function. -/
def sphere : Obj 2 F64 := { f := fun _ x => x 0 * x 0 + x 1 * x 1, log := [] }

/-- A function with state: it returns NaN on its sixth call. -/
def nanAtSix : Obj 2 F64 :=
  { f := fun log x => if log.length = 5 then Flt.nan else x 0 * x 0 + x 1 * x 1, log := [] }

/-- Options for two dimensions and four points per generation. -/
def opts : Options 2 F64 :=
  { Options.new (fun i => if i = 0 then 1 else 2) 1 with populationSize := 4, seed := some 1 }

theorem opts_valid : CMAES.validate opts = none := by decide +kernel

end Witness
end Cmaes
