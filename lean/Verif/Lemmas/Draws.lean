import Verif.Spec.Resample

/-!
# The vectors, steps and points of the model are those of the specification
-/

namespace Cmaes
variable {n : Nat} {F R : Type} [Flt F]

theorem after_add (rng : RngOps R F) (r : R) (a b : Nat) :
    rng.after (rng.after r a) b = rng.after r (a + b) := by
  induction b with
  | zero => rfl
  | succ b ih => rw [RngOps.after, ih]; rfl

theorem draw_after (rng : RngOps R F) (r : R) (a b : Nat) :
    rng.draw (rng.after r a) b = rng.draw r (a + b) := by
  unfold RngOps.draw
  rw [after_add]

theorem drawNormals_stream (rng : RngOps R F) (k : Nat) (r : R) :
    (drawNormals rng k r).2 = rng.after r k ∧
      ∀ i < k, (drawNormals rng k r).1.getD i 0 = rng.draw r i := by
  induction k generalizing r with
  | zero => exact ⟨rfl, fun i hi => absurd hi (by omega)⟩
  | succ k ih =>
    obtain ⟨h1, h2⟩ := ih (rng.normal r).2
    have e : (rng.normal r).2 = rng.after r 1 := rfl
    constructor
    · show (drawNormals rng k (rng.normal r).2).2 = _
      rw [h1, e, after_add, Nat.add_comm]
    · intro i hi
      cases i with
      | zero => rfl
      | succ i =>
        show (drawNormals rng k (rng.normal r).2).1.getD i 0 = _
        rw [h2 i (by omega), e, draw_after, Nat.add_comm]

theorem drawVec_stream (rng : RngOps R F) (r : R) (k : Nat) :
    drawVec rng (rng.after r (k * n)) = (rng.vector (n := n) r k, rng.after r ((k + 1) * n)) := by
  obtain ⟨h1, h2⟩ := drawNormals_stream rng n (rng.after r (k * n))
  unfold drawVec
  refine Prod.ext (funext fun i => ?_) ?_
  · show (drawNormals rng n (rng.after r (k * n))).1.getD i 0 = _
    rw [h2 i i.isLt, draw_after]
    rfl
  · show (drawNormals rng n (rng.after r (k * n))).2 = _
    rw [h1, after_add, Nat.succ_mul]

theorem drawVecs_stream (rng : RngOps R F) (r : R) (m k : Nat) :
    drawVecs rng m (rng.after r (k * n)) =
      ((List.range' k m).map (rng.vector (n := n) r), rng.after r ((k + m) * n)) := by
  induction m generalizing k with
  | zero => rfl
  | succ m ih =>
    unfold drawVecs
    rw [drawVec_stream]
    simp only
    rw [ih (k + 1), show k + 1 + m = k + (m + 1) by omega]
    rfl

theorem drawVecs_eq (rng : RngOps R F) (r : R) (m : Nat) :
    drawVecs rng m r = ((List.range m).map (rng.vector (n := n) r), rng.after r (m * n)) := by
  have := drawVecs_stream (n := n) rng r m 0
  rw [Nat.zero_mul, Nat.zero_add, ← List.range_eq_range'] at this
  exact this

theorem drawVec_eq (rng : RngOps R F) (r : R) :
    drawVec rng r = (rng.vector (n := n) r 0, rng.after r n) := by
  have := drawVec_stream (n := n) rng r 0
  rw [Nat.zero_mul, Nat.zero_add, Nat.one_mul] at this
  exact this

theorem mulVec_eq (T : Mat n F) (z : Vec n F) : T.mulVec z = stepOf T z := rfl

theorem toPoint_eq (y mean : Vec n F) (sigma : F) : toPoint y mean sigma = pointAt mean sigma y :=
  rfl

theorem drawVecs_steps (rng : RngOps R F) (T : Mat n F) (m : Nat) (r : R) :
    (drawVecs rng m r).1.map T.mulVec = nextSteps rng T m r := by
  rw [drawVecs_eq, List.map_map]
  rfl

theorem drawVecs_rng (rng : RngOps R F) (m : Nat) (r : R) :
    (drawVecs (n := n) rng m r).2 = rng.after r (m * n) := by
  rw [drawVecs_eq]

variable {rng : RngOps R F} {T : Mat n F} {mean : Vec n F} {sigma : F} {k : Constraint F}
  {lambda : Nat}

theorem acceptedRounds_succ (i : Nat) (r : R) :
    acceptedRounds rng T mean sigma k lambda (i + 1) r =
      ((acceptedRounds rng T mean sigma k lambda i r).1 ++
        ((drawVecs rng (lambda - (acceptedRounds rng T mean sigma k lambda i r).1.length)
          (acceptedRounds rng T mean sigma k lambda i r).2).1.map T.mulVec).filter
          fun y => decide (k (List.ofFn (toPoint y mean sigma)) = .ok true),
        (drawVecs (n := n) rng (lambda - (acceptedRounds rng T mean sigma k lambda i r).1.length)
          (acceptedRounds rng T mean sigma k lambda i r).2).2) := by
  rw [drawVecs_steps, drawVecs_rng]
  rfl

theorem limitedSteps_eq (m : Nat) (r : R) :
    limitedSteps rng T mean sigma k lambda m r =
      ((acceptedRounds rng T mean sigma k lambda m r).1 ++
        (drawVecs rng (lambda - (acceptedRounds rng T mean sigma k lambda m r).1.length)
          (acceptedRounds rng T mean sigma k lambda m r).2).1.map T.mulVec,
        (drawVecs (n := n) rng (lambda - (acceptedRounds rng T mean sigma k lambda m r).1.length)
          (acceptedRounds rng T mean sigma k lambda m r).2).2) := by
  rw [drawVecs_steps, drawVecs_rng]
  rfl

end Cmaes
