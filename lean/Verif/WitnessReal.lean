import Verif.Lemmas.RealMat
import Verif.Lemmas.Draws

/-!
# A concrete environment in exact arithmetic
-/

namespace Cmaes
namespace WitnessReal
open XR
variable {n : Nat}

/-- A generator that counts; its normal draws are `1, 2, 3, ...` after seeding with `0`. -/
noncomputable def rng : RngOps Nat XR where
  seed s := s
  normal r := (.fin (r + 1), r + 1)
  unit r := (.fin (1 / 2), r + 1)
  u64 r := (r, r + 1)
  uniform lo _ r := (lo, r + 1)

open Classical in
/-- An exact eigensolver. -/
noncomputable def exactEigen (m : Mat n XR) : Option (Mat n XR × Vec n XR) :=
  if h : ∃ B d C, m = Mat.fin C ∧ Decomposes C B d then
    some (Mat.fin h.choose, Vec.fin h.choose_spec.choose)
  else none

/-- The items of a batch in order. -/
def sched : Sched where
  order m := List.range m
  perm _ := List.Perm.refl _
  extra := 0

/-- An environment with exact arithmetic. -/
noncomputable def renv (n : Nat) : Env n XR Nat where
  rng := rng
  restartRng := rng
  eigen := exactEigen
  clock k := k
  sched _ := sched
  redTree _ := .leaf
  medianNaN _ := .ok Flt.nan
  randomSeed := 5
  resampleFuel := 20
  runFuel := 20
  restartFuel := 20

theorem renv_exact : ExactEigen (renv n) := by
  intro C hC
  obtain ⟨B, d, h⟩ := exists_decomposes hC
  have h' : ∃ B d C', Mat.fin C = Mat.fin C' ∧ Decomposes C' B d := ⟨B, d, C, rfl, h⟩
  refine ⟨h'.choose, h'.choose_spec.choose, ?_, ?_⟩
  · show exactEigen (Mat.fin C) = _
    unfold exactEigen
    rw [dif_pos h']
  · obtain ⟨C', e, h2⟩ := h'.choose_spec.choose_spec
    rwa [← Mat.fin_injective e] at h2

theorem drawNormals_getD (k : Nat) (r : Nat) (i : Nat) (hi : i < k) :
    (drawNormals rng k r).1.getD i 0 = .fin (r + i + 1) := by
  induction k generalizing r i with
  | zero => omega
  | succ k ih =>
    cases i with
    | zero => simp [drawNormals, rng]
    | succ i =>
      have := ih (r + 1) i (by omega)
      simp only [drawNormals, List.getD_cons_succ]
      rw [show (rng.normal r).2 = r + 1 from rfl, this]
      push_cast
      congr 1
      ring

theorem renv_draws (hn : n ≠ 0) : NonzeroDraws (renv n) := by
  intro r
  refine ⟨fun i => r + i + 1, ?_, ?_⟩
  · intro h
    have := congrFun h ⟨0, by omega⟩
    simp only [Pi.zero_apply] at this
    have h1 : (0 : ℝ) < r + (0 : ℕ) + 1 := by positivity
    exact h1.ne' this
  · funext i
    show (renv n).rng.draw r (0 * n + i) = _
    rw [Nat.zero_mul, Nat.zero_add]
    exact ((drawNormals_stream rng n r).2 i i.2).symm.trans (drawNormals_getD n r i i.2)

/-- The sphere function; zero for points that are not real. -/
noncomputable def sphereValue (x : Vec 2 XR) : ℝ :=
  match x 0, x 1 with
  | .fin a, .fin b => a * a + b * b
  | _, _ => 0

/-- The sphere function. -/
noncomputable def sphere : Obj 2 XR := { f := fun _ x => .fin (sphereValue x), log := [] }

/-- Options for two dimensions and six points per generation. -/
noncomputable def opts : Options 2 XR :=
  { Options.new (Vec.fin fun i => if i = 0 then 1 else 2) (.fin 1) with
    populationSize := 6, seed := some 0 }

/-- A generator whose normal draws are all `1/1000`. -/
noncomputable def constRng : RngOps Nat XR := { rng with normal := fun r => (.fin (1 / 1000), r) }

/-- An environment with exact arithmetic in which all drawn vectors are equal. -/
noncomputable def cenv (n : Nat) : Env n XR Nat := { renv n with rng := constRng }

theorem cenv_exact : ExactEigen (cenv n) := renv_exact (n := n)

theorem drawNormals_const (k : Nat) (r : Nat) (i : Nat) (hi : i < k) :
    (drawNormals constRng k r).1.getD i 0 = .fin (1 / 1000) := by
  induction k generalizing i with
  | zero => omega
  | succ k ih =>
    cases i with
    | zero => simp [drawNormals, constRng]
    | succ i =>
      simp only [drawNormals, List.getD_cons_succ]
      exact ih i (by omega)

theorem drawVec_const (r : Nat) :
    (drawVec (n := n) (cenv n).rng r).1 = Vec.fin fun _ => 1 / 1000 := by
  funext i
  exact drawNormals_const n r i i.2

theorem cenv_draws (hn : n ≠ 0) : NonzeroDraws (cenv n) := by
  refine fun r => ⟨fun _ => 1 / 1000, fun h => ?_, ?_⟩
  swap
  · rw [← drawVec_const r, drawVec_eq]
  have := congrFun h ⟨0, by omega⟩
  norm_num at this

end WitnessReal
end Cmaes
