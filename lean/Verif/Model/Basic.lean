import Verif.Float.Flt
import Mathlib.Data.List.Sort

/-!
# Outcomes of Rust code, the environment, vectors and matrices
-/

namespace Cmaes

/-- Why a computation panicked. The causes are those of /repo/src/state.rs:73,
/repo/src/termination.rs:155,157,266 and the arithmetic of /repo/src/sampling.rs:128,143,148 and
others; each use cites its line. -/
inductive Panic where
  /-- slice/vector index out of bounds -/
  | index
  /-- `Option::unwrap`/`Result::unwrap` on `None`/`Err` -/
  | unwrap
  /-- `expect("Invalid options")`, `/repo/src/functions.rs:8` -/
  | invalidOptions
  /-- `expect("Objective function returned an invalid value")`, `/repo/src/functions.rs:9` -/
  | invalidValue
  /-- integer overflow or underflow (checked arithmetic) -/
  | overflow
  /-- nalgebra's sum of an empty iterator of dynamically sized matrices -/
  | emptySum
  /-- `gen_range` on an empty or too large range -/
  | range
  /-- dimension mismatch in nalgebra -/
  | dims
  /-- `% 0` -/
  | remZero
  /-- panic in user code or in a library, with no further information -/
  | other
deriving DecidableEq, Repr

/-- The result of running Rust code: a value, a panic, or no result because a loop was cut off when
its fuel ran out. Stands for the semantics of the Rust functions of /repo/src; the only loops that
may not end are /repo/src/sampling.rs:127-144, /repo/src/lib.rs:593-597,650-654 and
/repo/src/restart/mod.rs:291-408. -/
inductive Outcome (α : Type) where
  | ok (a : α)
  | panic (p : Panic)
  | diverge
deriving DecidableEq, Repr

namespace Outcome
variable {α β : Type}

/-- Sequencing. Stands for `;` and `?`-free control flow in /repo/src. -/
def bind (x : Outcome α) (f : α → Outcome β) : Outcome β :=
  match x with
  | .ok a => f a
  | .panic p => .panic p
  | .diverge => .diverge

instance : Monad Outcome where
  pure := .ok
  bind := bind

@[simp] theorem pure_eq (a : α) : (pure a : Outcome α) = .ok a := rfl
@[simp] theorem ok_bind (a : α) (f : α → Outcome β) : (Outcome.ok a >>= f) = f a := rfl
@[simp] theorem panic_bind (p : Panic) (f : α → Outcome β) :
    ((Outcome.panic p : Outcome α) >>= f) = .panic p := rfl
@[simp] theorem diverge_bind (f : α → Outcome β) :
    ((Outcome.diverge : Outcome α) >>= f) = .diverge := rfl

theorem bind_eq_ok {x : Outcome α} {f : α → Outcome β} {b : β} :
    (x >>= f) = .ok b ↔ ∃ a, x = .ok a ∧ f a = .ok b := by
  cases x <;> simp

theorem bind_eq_panic {x : Outcome α} {f : α → Outcome β} {p : Panic} :
    (x >>= f) = .panic p ↔ x = .panic p ∨ ∃ a, x = .ok a ∧ f a = .panic p := by
  cases x <;> simp

theorem map_eq_bind (g : α → β) (x : Outcome α) : g <$> x = (x >>= fun a => .ok (g a)) := by
  cases x <;> rfl

instance : LawfulMonad Outcome := LawfulMonad.mk'
  (id_map := by intro _ x; cases x <;> rfl)
  (pure_bind := by intros; rfl)
  (bind_assoc := by intro _ _ _ x f g; cases x <;> rfl)

/-- `Option::unwrap`. Used at /repo/src/termination.rs:155,157, /repo/src/utils.rs:21-22 and
/repo/src/plotting/draw.rs:428-431; also for an index in bounds, as in /repo/src/history.rs:139-147.
-/
def unwrap (p : Panic) : Option α → Outcome α
  | some a => .ok a
  | none => .panic p

@[simp] theorem unwrap_some (p : Panic) (a : α) : unwrap p (some a) = .ok a := rfl

end Outcome

/-- `DVector<f64>` of length `n`. As in /repo/src/state.rs:15,21,23. -/
abbrev Vec (n : Nat) (F : Type) := Fin n → F

/-- `SquareMatrix<f64>` of size `n`, entry `(i, j)` at row `i`, column `j`. The type is at
/repo/src/matrix.rs:6. -/
abbrev Mat (n : Nat) (F : Type) := Fin n → Fin n → F

/-- Rust's stable `sort_by`, for a comparison given as "not greater". For a total preorder the
result of a stable sort does not depend on the algorithm. Simplification: for inconsistent
comparisons (only possible with NaN among eigenvalues, `/repo/src/plotting/data.rs:122`) this is
insertion sort. -/
def stableSort {α : Type} (le : α → α → Bool) (l : List α) : List α :=
  l.insertionSort fun a b => le a b = true

section
variable {n : Nat} {F : Type} [Flt F]

/-- Sum of floats, from left to right starting at zero: Rust's `Iterator::sum::<f64>`. Also used for
the inner products of nalgebra; simplification: nalgebra may add the terms in another order, which
matters for rounding only. Used at /repo/src/parameters/weights.rs:68-88,103,121 and
/repo/src/state.rs:124. -/
def fsum (l : List F) : F := l.foldl (· + ·) 0

namespace Vec
/-- Component-wise sum (nalgebra `+`). Used at /repo/src/state.rs:74,80,95,
/repo/src/sampling.rs:220 and /repo/src/termination.rs:203. -/
def add (x y : Vec n F) : Vec n F := fun i => x i + y i
/-- Scalar times vector (nalgebra `*`). Used at /repo/src/state.rs:72-80,95 and
/repo/src/termination.rs:198-201. -/
def smul (a : F) (x : Vec n F) : Vec n F := fun i => a * x i
/-- The zero vector (nalgebra `zeros`). Used at /repo/src/state.rs:35-36. -/
def zero : Vec n F := fun _ => 0
/-- nalgebra `magnitude()`: the square root of the sum of squares. Used at
/repo/src/state.rs:86,98,109. -/
def magnitude (x : Vec n F) : F := Flt.sqrt (fsum (List.ofFn fun i => x i * x i))
/-- nalgebra `max()`: folds with `if a >= b {a} else {b}`; zero for the empty vector. Used at
/repo/src/state.rs:174 and /repo/src/lib.rs:543. -/
def max (x : Vec n F) : F :=
  match List.ofFn x with
  | [] => 0
  | a :: l => l.foldl (fun a b => if Flt.le b a then a else b) a
/-- nalgebra `min()`: folds with `if a <= b {a} else {b}`; zero for the empty vector. Used at
/repo/src/state.rs:174 and /repo/src/lib.rs:542. -/
def min (x : Vec n F) : F :=
  match List.ofFn x with
  | [] => 0
  | a :: l => l.foldl (fun a b => if Flt.le a b then a else b) a
/-- nalgebra `==`: all components equal. Used at /repo/src/termination.rs:203. -/
def beq (x y : Vec n F) : Bool := (List.ofFn fun i => Flt.feq (x i) (y i)).all id
/-- nalgebra `component_mul` for vectors of equal length. Used at
/repo/src/objective_function.rs:210. -/
def cmul (x y : Vec n F) : Vec n F := fun i => x i * y i
end Vec

namespace Mat
/-- nalgebra `+`. Used at /repo/src/state.rs:124-127,219,233. -/
def add (A B : Mat n F) : Mat n F := fun i j => A i j + B i j
/-- Scalar times matrix. Used at /repo/src/state.rs:113,124-127. -/
def smul (a : F) (A : Mat n F) : Mat n F := fun i j => a * A i j
/-- nalgebra `zeros`. Used at /repo/src/state.rs:117. -/
def zero : Mat n F := fun _ _ => 0
/-- nalgebra `identity`. Used at /repo/src/matrix.rs:28-32. -/
def one : Mat n F := fun i j => if i = j then 1 else 0
/-- Matrix product. Used at /repo/src/matrix.rs:92-97. -/
def mul (A B : Mat n F) : Mat n F := fun i j => fsum (List.ofFn fun k => A i k * B k j)
/-- Matrix times vector. Used at /repo/src/sampling.rs:102 and /repo/src/state.rs:80,108. -/
def mulVec (A : Mat n F) (x : Vec n F) : Vec n F := fun i => fsum (List.ofFn fun k => A i k * x k)
/-- Transpose. Used at /repo/src/matrix.rs:96. -/
def transpose (A : Mat n F) : Mat n F := fun i j => A j i
/-- Column vector times row vector (`x * y.transpose()`). Used at /repo/src/state.rs:113,126. -/
def outer (x y : Vec n F) : Mat n F := fun i j => x i * y j
/-- nalgebra `from_diagonal`. Used at /repo/src/matrix.rs:91. -/
def diagonal (d : Vec n F) : Mat n F := fun i j => if i = j then d i else 0
/-- nalgebra `diagonal()`. Used at /repo/src/state.rs:173, /repo/src/lib.rs:406,541,
/repo/src/termination.rs:263 and /repo/src/plotting/data.rs:120,127. -/
def diag (A : Mat n F) : Vec n F := fun i => A i i
/-- nalgebra `column(j)`. Used at /repo/src/termination.rs:201. -/
def col (A : Mat n F) (j : Fin n) : Vec n F := fun i => A i j
/-- nalgebra `map`. Used at /repo/src/matrix.rs:95. -/
def map (f : F → F) (A : Mat n F) : Mat n F := fun i j => f (A i j)
/-- nalgebra `fill_lower_triangle_with_upper_triangle`: entries below the diagonal are replaced by
their mirror images. Used at /repo/src/matrix.rs:51. -/
def fillLower (A : Mat n F) : Mat n F := fun i j => if j < i then A j i else A i j
end Mat

/-- nalgebra's `Sum` for dynamically sized matrices: panics on an empty iterator, otherwise adds
from left to right starting with the first element. Used at /repo/src/state.rs:73,219. -/
def sumNonempty {α : Type} (add : α → α → α) : List α → Outcome α
  | [] => .panic .emptySum
  | a :: l => .ok (l.foldl add a)

end

/-- The draws of a random number generator used by the crate, as functions of its state. No
distribution is assumed. The draws are at /repo/src/sampling.rs:98,
/repo/src/restart/mod.rs:317,463, /repo/src/restart/bipop.rs:88,96. -/
structure RngOps (R F : Type) where
  /-- `seed_from_u64` -/
  seed : Nat → R
  /-- one draw from `Normal::new(0, 1)` (statrs) -/
  normal : R → F × R
  /-- `rng.gen::<f64>()`, in `[0, 1)` -/
  unit : R → F × R
  /-- `rng.gen::<u64>()` -/
  u64 : R → Nat × R
  /-- `rng.gen_range(lo..=hi)` for a range that it accepts -/
  uniform : F → F → R → F × R

/-- How rayon splits a sequence for `reduce`. Used at /repo/src/state.rs:229-233. -/
inductive SplitTree where
  | leaf
  | node (k : Nat) (l r : SplitTree)

/-- One parallel evaluation as scheduled by rayon: the order in which the items are evaluated and
how many more items are evaluated after the first NaN is found. Used at
/repo/src/sampling.rs:196-202. -/
structure Sched where
  /-- evaluation order for a batch of the given size -/
  order : Nat → List Nat
  /-- every item is scheduled exactly once -/
  perm : ∀ m, (order m).Perm (List.range m)
  /-- items still evaluated after the first NaN -/
  extra : Nat

/-- Everything outside the crate that a run depends on. All theorems quantify over it. The clock is
read at /repo/src/lib.rs:284, /repo/src/termination.rs:128 and /repo/src/restart/mod.rs:283,309; a
missing seed is drawn at /repo/src/lib.rs:248; the eigendecomposition is called in
/repo/src/matrix.rs:70-80. -/
structure Env (n : Nat) (F R : Type) where
  /-- the sampler's generator (`ChaCha12Rng`) -/
  rng : RngOps R F
  /-- the restarter's generator (`ChaChaRng`) -/
  restartRng : RngOps R F
  /-- `nalgebra::SymmetricEigen::try_new(m, 1e-20, 0)`: eigenvectors (columns) and eigenvalues -/
  eigen : Mat n F → Option (Mat n F × Vec n F)
  /-- the `k`-th reading of the clock, in nanoseconds -/
  clock : Nat → Nat
  /-- the schedule of the `k`-th step -/
  sched : Nat → Sched
  /-- rayon's split in the state update of the `k`-th step -/
  redTree : Nat → SplitTree
  /-- `statrs` median of data containing a NaN (its quickselect compares with NaN: the result is
  unspecified and may be a panic) -/
  medianNaN : List F → Outcome F
  /-- `rand::random()` when no seed is given -/
  randomSeed : Nat
  /-- cut-off for the resampling loop -/
  resampleFuel : Nat
  /-- cut-off for the loop of `run` -/
  runFuel : Nat
  /-- cut-off for the restart loop -/
  restartFuel : Nat

end Cmaes
