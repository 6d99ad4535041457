import Verif.Spec.Stream
import Verif.Lemmas.Draws
import Verif.Props.Sampling
import Verif.Witness

/-!
# C70: the random numbers of a run
-/

set_option linter.unusedSectionVars false

namespace Cmaes
variable {n : Nat} {F R : Type} [Flt F]

theorem filterOk_sublist {ok : Vec n F → Outcome Bool} {l l' : List (Vec n F)}
    (h : filterOk ok l = .ok l') : l'.Sublist l := by
  induction l generalizing l' with
  | nil => simp only [filterOk, Outcome.ok.injEq] at h; subst h; simp
  | cons y l ih =>
    simp only [filterOk, Outcome.bind_eq_ok, Outcome.ok.injEq] at h
    obtain ⟨b, _, rest, hr, rfl⟩ := h
    have := ih hr
    split
    · exact this.cons_cons y
    · exact this.cons y

/-- The collected steps come from random vectors with increasing numbers. -/
theorem resample_stream {rng : RngOps R F} {T : Mat n F} {mean : Vec n F} {sigma : F}
    {cs : Option (Constraint F)} {mx : Option Nat} {pop fuel i : Nat} {y ys : List (Vec n F)}
    {r r' : R} {k : Nat}
    (h : resample rng T mean sigma cs mx pop fuel i y (rng.after r (k * n)) = .ok (ys, r')) :
    ∃ (k' : Nat) (ks : List Nat), k ≤ k' ∧ r' = rng.after r (k' * n) ∧ ks.Pairwise (· < ·) ∧
      (∀ j ∈ ks, k ≤ j ∧ j < k') ∧ ys = y ++ ks.map (fun j => T.mulVec (rng.vector r j)) ∧
      (cs = none → k' = k + (pop - y.length)) := by
  induction fuel generalizing i y k with
  | zero => simp [resample] at h
  | succ fuel ih =>
    simp only [resample] at h
    split at h
    · simp at h
    · split at h
      · injection h with h
        injection h with h1 h2
        exact ⟨k, [], le_rfl, h2.symm, .nil, by simp, by simp [h1], fun _ => by omega⟩
      · simp only [Outcome.bind_eq_ok, sampleRound, drawVecs_stream, Outcome.ok.injEq] at h
        obtain ⟨⟨new, r2⟩, ⟨ys2, hf, he⟩, h⟩ := h
        injection he with he1 he2
        subst he1 he2
        obtain ⟨k', ks', h1, h2, h3, h4, h5, h6⟩ := ih h
        have hsub := filterOk_sublist hf
        rw [List.map_map] at hsub
        obtain ⟨ks, hks, rfl⟩ := List.sublist_map_iff.mp hsub
        have hr : ∀ j ∈ ks, k ≤ j ∧ j < k + (pop - y.length) := by
          intro j hj
          have := hks.subset hj
          rw [List.mem_range'_1] at this
          exact this
        refine ⟨k', ks ++ ks', by omega, h2, ?_, ?_, ?_, ?_⟩
        · rw [List.pairwise_append]
          refine ⟨List.Pairwise.sublist hks List.pairwise_lt_range', h3, ?_⟩
          intro a ha b hb
          have := hr a ha
          have := h4 b hb
          omega
        · intro j hj
          rcases List.mem_append.mp hj with hj | hj
          · have := hr j hj; omega
          · have := h4 j hj; omega
        · rw [h5, List.map_append, List.append_assoc]
          rfl
        · intro hc
          have e := h6 hc
          subst hc
          have hf : filterOk (fun _ => .ok true)
              (List.map T.mulVec (List.map (rng.vector r) (List.range' k (pop - y.length)))) =
                .ok (List.map (T.mulVec ∘ rng.vector r) ks) := by
            cases mx with
            | none => exact hf
            | some m => simp only [ite_self] at hf; exact hf
          have hf' := (filterOk_ok_true _).symm.trans hf
          injection hf' with hf
          have hl : ks.length = pop - y.length := by
            have := congrArg List.length hf
            simp only [List.length_map, List.length_range'] at this
            exact this.symm
          rw [e, List.length_append, List.length_map, hl]
          omega

variable [FltLaws F] {env : Env n F R} {obj : Obj n F} {o : Options n F} {t : List (NextCall n F)}
  {c : CMAES n F R}

/-- One call: its points are made of vectors of the stream from the current position on. -/
theorem next_stream {kind : EvalKind} {d : CMAES n F R} {res : Option (TerminationData n F)}
    {calls : List (Vec n F × F)} (h : History.Of env obj o t c)
    (hn : c.next env kind = .ok (d, res)) (hl : d.sampler.obj.log = c.sampler.obj.log ++ calls)
    {seed k : Nat} (hk : c.sampler.rng = env.rng.after (env.rng.seed seed) (k * n)) :
    ∃ (k' : Nat) (ks : List Nat), k ≤ k' ∧ d.sampler.rng = env.rng.after (env.rng.seed seed) (k' * n) ∧
      ks.Pairwise (· < ·) ∧ (∀ j ∈ ks, k ≤ j ∧ j < k') ∧ ks.length = o.populationSize ∧
      (o.constraints = none → k' = k + o.populationSize) ∧
      PointsFrom env seed c { kind, calls, result := res } ks := by
  obtain ⟨ys, hd, hsub, hpre⟩ := next_points hn hl
  obtain ⟨gs, i, _⟩ := fresh_inv h
  have hd' := hd
  unfold drawnSteps at hd
  rw [hk] at hd
  obtain ⟨hlen, _⟩ := resample_eq_ok hd
  rw [i.populationSize] at hlen
  obtain ⟨k', ks, h1, h2, h3, h4, h5, h6⟩ := resample_stream hd
  rw [List.nil_append] at h5
  have hklen : ks.length = o.populationSize := by rw [← hlen, h5, List.length_map]
  refine ⟨k', ks, h1, h2, h3, h4, hklen, ?_, ?_⟩
  · intro hc
    rw [h6 (by rw [i.constraints, hc]), i.populationSize]
    rfl
  · have hmap : ys.map (toPoint · c.mean c.sigma) = ks.map fun k => pointAt c.mean c.sigma
        (stepOf c.state.cov.transform (env.rng.vector (env.rng.seed seed) k)) := by
      rw [h5, List.map_map]
      rfl
    refine ⟨by rw [← hmap]; exact hsub, fun hs => by rw [← hmap]; exact hpre hs, ?_⟩
    intro hf
    rw [hklen]
    obtain ⟨calls', _, hl', _, _, _, hcase⟩ := next_cases hn
    have e : calls' = calls := List.append_cancel_left (hl'.symm.trans hl)
    subst e
    rcases hcase with hfail | ⟨ps, inds, hcomp, _⟩
    · exact absurd ⟨_, hfail.result, by simp [CMAES.terminationData]⟩ hf
    · rw [hcomp.sampled.callsLength, i.populationSize]

/-- **C70.** Every point of a run is made of its own random vector. For every run there are
positions `N 0 ≤ N 1 ≤ …` in the stream of the generator seeded with `parameters().seed`, with
`N 0 = 0`, such that the `j`-th `next` call uses only vectors with numbers in `[N j, N (j + 1))`:
one for each of the `populationSize` points, in increasing order, so that no vector is used twice
by one call or by two calls. Without constraints no random number is left out. -/
theorem c70_stream (h : History.Of env obj o t c) :
    ∃ N : Nat → Nat, N 0 = 0 ∧ Monotone N ∧
      (o.constraints = none → ∀ j ≤ t.length, N j = o.populationSize * j) ∧
      ∀ (j : Nat) (s : NextCall n F), t[j]? = some s →
        ∃ (c1 c2 : CMAES n F R) (ks : List Nat), History.Of env obj o (t.take j) c1 ∧
          c1.next env s.kind = .ok (c2, s.result) ∧ Exec env c2 (t.drop (j + 1)) c ∧
          ks.Pairwise (· < ·) ∧ (∀ k ∈ ks, N j ≤ k ∧ k < N (j + 1)) ∧
          ks.length = o.populationSize ∧ PointsFrom env c.parameters.seed c1 s ks := by
  obtain ⟨w, c0, h0, he⟩ := h
  suffices H : ∃ N : Nat → Nat, N 0 = 0 ∧ Monotone N ∧
      c.sampler.rng = env.rng.after (env.rng.seed c.parameters.seed) (N t.length * n) ∧
      (∀ j, t.length ≤ j → N j = N t.length) ∧
      (o.constraints = none → ∀ j ≤ t.length, N j = o.populationSize * j) ∧
      ∀ (j : Nat) (s : NextCall n F), t[j]? = some s →
        ∃ (c1 c2 : CMAES n F R) (ks : List Nat), History.Of env obj o (t.take j) c1 ∧
          c1.next env s.kind = .ok (c2, s.result) ∧ Exec env c2 (t.drop (j + 1)) c ∧
          ks.Pairwise (· < ·) ∧ (∀ k ∈ ks, N j ≤ k ∧ k < N (j + 1)) ∧
          ks.length = o.populationSize ∧ PointsFrom env c.parameters.seed c1 s ks by
    obtain ⟨N, a, b, _, _, d, e⟩ := H
    exact ⟨N, a, b, d, e⟩
  induction he with
  | refl =>
    obtain ⟨hv, rfl⟩ := new_eq_ok h0
    obtain ⟨a1, a2, -⟩ := create_search env w obj o
    refine ⟨fun _ => 0, rfl, monotone_const, ?_, fun _ _ => rfl, ?_, by simp⟩
    · rw [a1, a2, Nat.zero_mul]
      rfl
    · intro _ j hj
      have : j = 0 := by simpa using hj
      subst this
      rfl
  | next he' hn hl ih =>
    rename_i c1 c2 t1 kind calls r
    obtain ⟨N, b1, b2, b3, b4, b5, b6⟩ := ih
    have hO : History.Of env obj o t1 c1 := ⟨w, c0, h0, he'⟩
    obtain ⟨k', ks, d1, d2, d3, d4, d5, d6, d7⟩ := next_stream hO hn hl b3
    have hpar : c2.parameters = c1.parameters := by
      obtain ⟨_, hc, _⟩ := next_cases hn
      exact hc.parameters
    have hN : ∀ j ≤ t1.length, (if j ≤ t1.length then N j else k') = N j := fun j hj => if_pos hj
    refine ⟨fun j => if j ≤ t1.length then N j else k', by simpa using b1, ?_, ?_, ?_, ?_, ?_⟩
    · intro a b hab
      show (if a ≤ t1.length then N a else k') ≤ (if b ≤ t1.length then N b else k')
      by_cases hb : b ≤ t1.length
      · rw [if_pos hb, if_pos (hab.trans hb)]
        exact b2 hab
      · rw [if_neg hb]
        by_cases ha : a ≤ t1.length
        · rw [if_pos ha]
          exact (b2 ha).trans d1
        · rw [if_neg ha]
    · rw [hpar, d2]
      simp
    · intro j hj
      rw [List.length_append, List.length_singleton] at hj
      simp only [List.length_append, List.length_singleton]
      rw [if_neg (by omega), if_neg (by omega)]
    · intro hc j hj
      rw [List.length_append, List.length_singleton] at hj
      show (if j ≤ t1.length then N j else k') = _
      by_cases hj' : j ≤ t1.length
      · rw [if_pos hj', b5 hc j hj']
      · rw [if_neg hj', d6 hc, b5 hc _ le_rfl, show j = t1.length + 1 by omega, Nat.mul_succ]
    · intro j s hs
      by_cases hj : j < t1.length
      · rw [List.getElem?_append_left hj] at hs
        obtain ⟨x, y, ls, e1, e2, e3, e4, e5, e6, e7⟩ := b6 j s hs
        refine ⟨x, y, ls, ?_, e2, ?_, e4, ?_, e6, ?_⟩
        · rw [List.take_append_of_le_length hj.le]
          exact e1
        · rw [List.drop_append_of_le_length hj]
          exact e3.next hn hl
        · show ∀ k ∈ ls, (if j ≤ t1.length then N j else k') ≤ k ∧
            k < (if j + 1 ≤ t1.length then N (j + 1) else k')
          rw [if_pos hj.le, if_pos (Nat.succ_le_of_lt hj)]
          exact e5
        · rw [hpar]
          exact e7
      · rw [List.getElem?_append_right (by omega)] at hs
        have hj' : j = t1.length := by
          by_contra hne
          rw [List.getElem?_eq_none (by simp; omega)] at hs
          cases hs
        subst hj'
        rw [Nat.sub_self] at hs
        injection hs with hs
        subst hs
        refine ⟨c1, c2, ks, ?_, hn, ?_, d3, ?_, d5, ?_⟩
        · rw [List.take_left']
          · exact hO
          · rfl
        · rw [List.drop_of_length_le (by simp)]
          exact .refl c2
        · show ∀ k ∈ ks, (if t1.length ≤ t1.length then N t1.length else k') ≤ k ∧
            k < (if t1.length + 1 ≤ t1.length then N (t1.length + 1) else k')
          rw [if_pos le_rfl, if_neg (by omega)]
          exact d4
        · rw [hpar]
          exact d7
  | quiet he' hq ha ih =>
    rename_i c1 c2 t1 op r
    obtain ⟨N, b1, b2, b3, b4, b5, b6⟩ := ih
    obtain ⟨s, _⟩ := quiet_sameSearch hq ha
    refine ⟨N, b1, b2, by rw [s.sampler, s.parameters, b3], b4, b5, ?_⟩
    intro j q hj
    obtain ⟨x, y, ls, e1, e2, e3, e4, e5, e6, e7⟩ := b6 j q hj
    exact ⟨x, y, ls, e1, e2, e3.quiet hq ha, e4, e5, e6, by rw [s.parameters]; exact e7⟩

section
open Witness
set_option maxRecDepth 100000

/-- A run without constraints: three generations use the vectors 0 to 11. -/
example : ∃ t c, History.Of (wenv 2) sphere opts t c ∧
    (decide (t.length = 3) && decide (opts.constraints.isNone) && decide (c.sampler.rng =
      (wenv 2).rng.after ((wenv 2).rng.seed c.parameters.seed) (4 * 3 * 2))) = true :=
  exists_history [.seq, .par, .seq] _ opts_valid (by decide +kernel)

/-- With constraints some vectors are skipped; a failed call uses up its vectors too. -/
example : ∃ t c, History.Of (wenv 2) sphere (boxOpts none) t c ∧
    (decide (t.length = 1) && decide (c.sampler.rng ≠
      (wenv 2).rng.after ((wenv 2).rng.seed c.parameters.seed) (4 * 1 * 2))) = true :=
  exists_history [.seq] _ (by decide +kernel) (by decide +kernel)
example : ∃ t c, History.Of (wenv 2) nanAtSix opts t c ∧
    (decide (t.map (fun s => s.calls.length) = [4, 2, 4]) && decide (c.sampler.rng =
      (wenv 2).rng.after ((wenv 2).rng.seed c.parameters.seed) (4 * 3 * 2))) = true :=
  exists_history [.seq, .seq, .seq] _ opts_valid (by decide +kernel)
end

end Cmaes
