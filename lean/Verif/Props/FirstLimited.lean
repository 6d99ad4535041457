import Verif.Props.FirstFeasible
import Verif.Spec.FirstFeasible

/-!
# C93 with a limit on resampling
-/

set_option linter.unusedSectionVars false

namespace Cmaes
variable {n : Nat} {F R : Type} [Flt F]

theorem questions_full {ok : Nat → Bool} {pop i : Nat}
    (h : pop ≤ ((List.range (questions ok pop i)).filter ok).length) (k : Nat) :
    questions ok pop (i + k) = questions ok pop i := by
  induction k with
  | zero => rfl
  | succ k ih =>
    rw [← Nat.add_assoc, questions, ih]
    omega

/-- The resampling loop in its `i`-th round. -/
theorem resample_limit {rng : RngOps R F} {T : Mat n F} {mean : Vec n F} {sigma : F}
    {κ : Constraint F} {pop fuel i m : Nat} {ys : List (Vec n F)} {r r' : R} (hi : i ≤ m)
    {ok : Nat → Bool} (hok : ok = fun j =>
      decide (κ (List.ofFn (toPoint (T.mulVec (rng.vector r j)) mean sigma)) = .ok true))
    (ha : ∀ j < questions ok pop i,
      ∃ b, κ (List.ofFn (toPoint (T.mulVec (rng.vector r j)) mean sigma)) = .ok b)
    (h : resample rng T mean sigma (some κ) (some m) pop fuel i
      (((List.range (questions ok pop i)).filter ok).map fun j => T.mulVec (rng.vector r j))
      (rng.after r (questions ok pop i * n)) = .ok (ys, r')) :
    let K := questions ok pop m
    let rest := pop - ((List.range K).filter ok).length
    r' = rng.after r ((K + rest) * n) ∧
    (∀ j < K, ∃ b, κ (List.ofFn (toPoint (T.mulVec (rng.vector r j)) mean sigma)) = .ok b) ∧
    ys = ((List.range K).filter ok ++ List.range' K rest).map fun j => T.mulVec (rng.vector r j) := by
  induction fuel generalizing i with
  | zero => simp [resample] at h
  | succ fuel ih =>
    simp only [resample, List.length_map] at h
    split at h
    · simp at h
    · rename_i hlt
      split at h
      · rename_i hrem
        injection h with h
        injection h with h1 h2
        obtain ⟨k, rfl⟩ := Nat.exists_eq_add_of_le hi
        have hq := questions_full (ok := ok) (pop := pop) (i := i) (by omega) k
        rw [hq]
        intro K rest
        have hr : rest = 0 := hrem
        rw [hr]
        exact ⟨h2.symm, ha, by rw [← h1]; simp [K]⟩
      · rename_i hrem
        simp only [Outcome.bind_eq_ok] at h
        obtain ⟨⟨new, r2⟩, hs, h⟩ := h
        split at hs
        · rename_i hm
          have e : i = m := Nat.le_antisymm hi hm
          subst e
          obtain ⟨h1, h2, h3⟩ := sampleRound_eq_ok hs
          rw [drawVecs_stream] at h1 h2 h3
          simp only at h1
          subst h1
          intro K rest
          have hnew : new = (List.range' K rest).map fun j => T.mulVec (rng.vector r j) := by
            rw [h3, List.map_map]
            refine List.filter_eq_self.mpr fun y _ => ?_
            rfl
          subst hnew
          cases fuel with
          | zero => simp [resample] at h
          | succ fuel =>
            simp only [resample, List.length_append, List.length_map, List.length_range'] at h
            rw [if_neg (by simp only [rest, K]; omega), if_pos (by simp only [rest, K]; omega)] at h
            injection h with h
            injection h with h1 h2
            exact ⟨h2.symm, ha, by rw [← h1, List.map_append]⟩
        · rename_i hm
          obtain ⟨h1, h2, h3⟩ := sampleRound_eq_ok hs
          rw [drawVecs_stream] at h1 h2 h3
          simp only at h1
          subst h1
          have hnew : new = ((List.range' (questions ok pop i)
              (pop - ((List.range (questions ok pop i)).filter ok).length)).filter ok).map
                fun j => T.mulVec (rng.vector r j) := by
            rw [h3, List.map_map, List.filter_map, hok]
            rfl
          have hrange : List.range (questions ok pop (i + 1)) = List.range (questions ok pop i) ++
              List.range' (questions ok pop i)
                (pop - ((List.range (questions ok pop i)).filter ok).length) := by
            rw [questions, List.range_eq_range', List.range_eq_range', List.range'_append_1.symm,
              Nat.zero_add]
          refine ih (i := i + 1) (by omega) ?_ ?_
          · intro j hj
            have hj : j ∈ List.range (questions ok pop (i + 1)) := List.mem_range.mpr hj
            rw [hrange] at hj
            rcases List.mem_append.mp hj with hj | hj
            · exact ha j (List.mem_range.mp hj)
            · exact h2 _ (List.mem_map.mpr ⟨_, List.mem_map.mpr ⟨j, hj, rfl⟩, rfl⟩)
          · rw [hrange, List.filter_append, List.map_append, ← hnew]
            exact h

variable [FltLaws F] {env : Env n F R} {obj : Obj n F} {o : Options n F} {t : List (NextCall n F)}
  {c d : CMAES n F R} {kind : EvalKind} {res : Option (TerminationData n F)}
  {calls : List (Vec n F × F)}

/-- **C93 with a limit.** With constraints and `max_resamples = Some(m)`, the first `K` candidates are
shown to the constraints, where `K` is what `m` rounds need. The generation consists of the acceptable
ones of these and, if they are too few, of as many of the candidates after them as are missing, which
are not shown to the constraints. No random number is drawn after those. -/
theorem c93_limited (h : History.Of env obj o t c) {κ : Constraint F} (hk : o.constraints = some κ)
    {m : Nat} (hm : o.maxResamples = some m) (hn : c.next env kind = .ok (d, res))
    (hl : d.sampler.obj.log = c.sampler.obj.log ++ calls) :
    let x : Nat → Vec n F := fun j => pointAt c.mean c.sigma
      (stepOf c.state.cov.transform (env.rng.vector c.sampler.rng j))
    let ok : Nat → Bool := fun j => κ (List.ofFn (x j)) = .ok true
    let K := questions ok o.populationSize m
    let accepted := (List.range K).filter ok
    let unasked := List.range' K (o.populationSize - accepted.length)
    accepted.length + unasked.length = o.populationSize ∧
    d.sampler.rng = env.rng.after c.sampler.rng ((K + unasked.length) * n) ∧
    (∀ j < K, ∃ b, κ (List.ofFn (x j)) = .ok b) ∧
    NextCall.On { kind, calls, result := res } ((accepted ++ unasked).map x) := by
  intro x ok K accepted unasked
  obtain ⟨ys, hd, hsub, hpre⟩ := next_points hn hl
  obtain ⟨gs, i, _⟩ := fresh_inv h
  unfold drawnSteps at hd
  rw [i.constraints, i.maxResamples, hk, hm, i.populationSize] at hd
  obtain ⟨hlen, _⟩ := resample_eq_ok hd
  obtain ⟨h1, h2, h3⟩ := resample_limit (ok := ok) (i := 0) (r := c.sampler.rng) (Nat.zero_le m) rfl
    (by intro j hj; exact absurd hj (Nat.not_lt_zero j)) (by
      rw [show questions ok o.populationSize 0 = 0 from rfl, Nat.zero_mul]; exact hd)
  have hsize : accepted.length + unasked.length = o.populationSize := by
    rw [← List.length_append, ← hlen, h3, List.length_map]
  have hmap : ys.map (fun y => toPoint y c.state.mean c.state.sigma) =
      (accepted ++ unasked).map x := by
    rw [h3, List.map_map]
    rfl
  rw [hmap] at hsub hpre
  refine ⟨hsize, by rw [List.length_range']; exact h1, h2, hsub, hpre, fun hf => ?_⟩
  refine hsub.perm_of_length_le ?_
  rw [List.length_map, List.length_map, List.length_append, hsize]
  obtain ⟨calls', _, hl', _, _, _, hcase⟩ := next_cases hn
  have e : calls' = calls := List.append_cancel_left (hl'.symm.trans hl)
  subst e
  rcases hcase with hfail | ⟨ps, inds, hcomp, _⟩
  · exact absurd ⟨_, hfail.result, by simp [CMAES.terminationData]⟩ hf
  · rw [hcomp.sampled.callsLength, i.populationSize]

section
open Witness
set_option maxRecDepth 100000

/-- Non-vacuity: with one round, a generation of four points for which candidates are rejected and
replaced. -/
example : ∃ t c d res, History.Of (wenv 2) sphere (boxOpts (some 1)) t c ∧
    c.next (wenv 2) .par = .ok (d, res) ∧ d.sampler.rng > c.sampler.rng + 8 := by
  obtain ⟨t, c, h, hp⟩ := exists_history (env := wenv 2) (obj := sphere) (o := boxOpts (some 1)) [.seq]
    (fun c _ => (c.next (wenv 2) .par).check fun x => decide (x.1.sampler.rng > c.sampler.rng + 8))
    (by decide +kernel) (by decide +kernel)
  obtain ⟨⟨d, res⟩, h1, h2⟩ := Outcome.of_check hp
  exact ⟨t, c, d, res, h, h1, of_decide_eq_true h2⟩

end

end Cmaes
