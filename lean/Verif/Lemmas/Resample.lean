import Verif.Lemmas.Next
import Verif.Lemmas.Draws

/-!
# The resampling loop meets its specification
-/

set_option linter.unusedSectionVars false

namespace Cmaes
variable {n : Nat} {F R : Type} [Flt F]

section
variable {rng : RngOps R F} {T : Mat n F} {mean : Vec n F} {sigma : F} {k : Constraint F}
  {lambda : Nat}

theorem acceptedRounds_length_le (i : Nat) (r : R) :
    (acceptedRounds rng T mean sigma k lambda i r).1.length ≤ lambda := by
  induction i with
  | zero => simp [acceptedRounds]
  | succ i ih =>
    simp only [acceptedRounds_succ, List.length_append]
    have := List.length_filter_le
      (fun y => decide (k (List.ofFn (toPoint y mean sigma)) = .ok true))
      ((drawVecs rng (lambda - (acceptedRounds rng T mean sigma k lambda i r).1.length)
        (acceptedRounds rng T mean sigma k lambda i r).2).1.map T.mulVec)
    rw [List.length_map, drawVecs_length] at this
    omega

theorem acceptedRounds_ok (i : Nat) (r : R) :
    ∀ y ∈ (acceptedRounds rng T mean sigma k lambda i r).1,
      k (List.ofFn (toPoint y mean sigma)) = .ok true := by
  induction i with
  | zero => simp [acceptedRounds]
  | succ i ih =>
    intro y hy
    simp only [acceptedRounds_succ] at hy
    rcases List.mem_append.mp hy with hy | hy
    · exact ih y hy
    · exact of_decide_eq_true (List.mem_filter.mp hy).2

theorem acceptedRounds_stable {i : Nat} {r : R}
    (h : (acceptedRounds rng T mean sigma k lambda i r).1.length = lambda) (j : Nat) :
    acceptedRounds rng T mean sigma k lambda (i + j) r =
      acceptedRounds rng T mean sigma k lambda i r := by
  induction j with
  | zero => rfl
  | succ j ih =>
    rw [← Nat.add_assoc]
    simp only [acceptedRounds_succ, ih, h, Nat.sub_self, drawVecs, List.map_nil, List.filter_nil,
      List.append_nil]

theorem acceptedRounds_mono (i j : Nat) (r : R) :
    (acceptedRounds rng T mean sigma k lambda i r).1 <+:
      (acceptedRounds rng T mean sigma k lambda (i + j) r).1 := by
  induction j with
  | zero => exact List.prefix_rfl
  | succ j ih =>
    rw [← Nat.add_assoc]
    exact ih.trans (by simp only [acceptedRounds_succ]; exact List.prefix_append _ _)

theorem limitedSteps_length (m : Nat) (r : R) :
    (limitedSteps rng T mean sigma k lambda m r).1.length = lambda := by
  have := acceptedRounds_length_le (rng := rng) (T := T) (mean := mean) (sigma := sigma) (k := k)
    (lambda := lambda) m r
  simp only [limitedSteps_eq, List.length_append, List.length_map, drawVecs_length]
  omega

theorem sampleRound_some {m : Nat} {r r' : R} {ys : List (Vec n F)}
    (h : sampleRound rng T mean sigma (some k) m r = .ok (ys, r')) :
    r' = (drawVecs (n := n) rng m r).2 ∧ ys = ((drawVecs rng m r).1.map T.mulVec).filter
      fun y => decide (k (List.ofFn (toPoint y mean sigma)) = .ok true) := by
  obtain ⟨h1, _, h3⟩ := sampleRound_eq_ok h
  exact ⟨h1, h3⟩

theorem sampleRound_some_total (hk : ∀ x : Vec n F, ∃ b, k (List.ofFn x) = .ok b) (m : Nat) (r : R) :
    sampleRound rng T mean sigma (some k) m r =
      .ok (((drawVecs rng m r).1.map T.mulVec).filter
        fun y => decide (k (List.ofFn (toPoint y mean sigma)) = .ok true),
        (drawVecs (n := n) rng m r).2) := by
  obtain ⟨zs, hz⟩ := filterOk_total (p := fun y : Vec n F => k (List.ofFn (toPoint y mean sigma)))
    (ys := (drawVecs rng m r).1.map T.mulVec) (fun y _ => hk _)
  have h : sampleRound rng T mean sigma (some k) m r =
      .ok (zs, (drawVecs (n := n) rng m r).2) := by
    simp only [sampleRound, hz]
    rfl
  rw [h, (sampleRound_some h).2]

/-- Without a limit, a loop that ends has drawn some number of rounds. -/
theorem resample_unlimited {pop fuel i : Nat} {ys : List (Vec n F)} {r0 r r' : R}
    {y : List (Vec n F)} (hs : (y, r) = acceptedRounds rng T mean sigma k pop i r0)
    (h : resample rng T mean sigma (some k) none pop fuel i y r = .ok (ys, r')) :
    ∃ j, (ys, r') = acceptedRounds rng T mean sigma k pop j r0 ∧ ys.length = pop := by
  induction fuel generalizing i y r with
  | zero => simp [resample] at h
  | succ fuel ih =>
    simp only [resample] at h
    split at h
    · simp at h
    · split at h
      · simp only [Outcome.ok.injEq, Prod.mk.injEq] at h
        obtain ⟨rfl, rfl⟩ := h
        exact ⟨i, hs, by omega⟩
      · simp only [Outcome.bind_eq_ok] at h
        obtain ⟨⟨new, r1⟩, h1, h2⟩ := h
        refine ih (i := i + 1) ?_ h2
        obtain ⟨rfl, rfl⟩ := sampleRound_some h1
        simp only [acceptedRounds_succ, ← hs]

/-- With a limit, a loop that ends has drawn the specified steps. -/
theorem resample_limited {pop fuel i m : Nat} {ys : List (Vec n F)} {r0 r r' : R}
    {y : List (Vec n F)} (him : i ≤ m)
    (hs : (y, r) = acceptedRounds rng T mean sigma k pop i r0)
    (h : resample rng T mean sigma (some k) (some m) pop fuel i y r = .ok (ys, r')) :
    (ys, r') = limitedSteps rng T mean sigma k pop m r0 := by
  induction fuel generalizing i y r with
  | zero => simp [resample] at h
  | succ fuel ih =>
    simp only [resample] at h
    split at h
    · simp at h
    · split at h
      · rename_i h0 h1
        simp only [Outcome.ok.injEq, Prod.mk.injEq] at h
        obtain ⟨rfl, rfl⟩ := h
        have hl : (acceptedRounds rng T mean sigma k pop i r0).1.length = pop := by
          rw [← hs]; simp only; omega
        have := acceptedRounds_stable hl (m - i)
        rw [Nat.add_sub_cancel' him] at this
        simp only [limitedSteps_eq, this, ← hs, h1, drawVecs, List.map_nil, List.append_nil]
      · rename_i h0 h1
        simp only [Outcome.bind_eq_ok] at h
        obtain ⟨⟨new, r1⟩, h2, h3⟩ := h
        by_cases him' : m ≤ i
        · have : i = m := by omega
          subst this
          simp only [le_refl, if_true] at h2
          rw [sampleRound_none] at h2
          simp only [Outcome.ok.injEq, Prod.mk.injEq] at h2
          obtain ⟨rfl, rfl⟩ := h2
          -- the next iteration returns
          cases fuel with
          | zero => simp [resample] at h3
          | succ fuel =>
            simp only [resample] at h3
            have hl : (y ++ (drawVecs rng (pop - y.length) r).1.map T.mulVec).length = pop := by
              simp only [List.length_append, List.length_map, drawVecs_length]; omega
            simp only [hl, lt_irrefl, Nat.sub_self, if_false, if_true, Outcome.ok.injEq,
              Prod.mk.injEq] at h3
            obtain ⟨rfl, rfl⟩ := h3
            simp only [limitedSteps_eq, ← hs]
        · simp only [him', if_false] at h2
          refine ih (i := i + 1) (by omega) ?_ h3
          obtain ⟨rfl, rfl⟩ := sampleRound_some h2
          simp only [acceptedRounds_succ, ← hs]

/-- Without constraints one round is drawn. -/
theorem resample_unconstrained {pop fuel : Nat} {mx : Option Nat} {r : R} (hf : 2 ≤ fuel) :
    resample rng T mean sigma none mx pop fuel 0 [] r =
      .ok ((drawVecs rng pop r).1.map T.mulVec, (drawVecs (n := n) rng pop r).2) := by
  obtain ⟨fuel, rfl⟩ : ∃ f, fuel = f + 2 := ⟨fuel - 2, by omega⟩
  by_cases hp : pop = 0
  · subst hp; simp [resample, drawVecs]
  · cases mx <;> simp [resample, hp, sampleRound_none, drawVecs_length]

/-- With a limit and constraints that do not panic, the loop ends with the specified steps after at
most `m + 1` rounds (the `m + 2`-nd iteration only finds that nothing is missing). -/
theorem resample_limited_total {pop m fuel i : Nat} {r0 r : R} {y : List (Vec n F)}
    (hk : ∀ x : Vec n F, ∃ b, k (List.ofFn x) = .ok b) (him : i ≤ m) (hf : m + 2 ≤ fuel + i)
    (hs : (y, r) = acceptedRounds rng T mean sigma k pop i r0) :
    resample rng T mean sigma (some k) (some m) pop fuel i y r =
      .ok (limitedSteps rng T mean sigma k pop m r0) := by
  have key : ∃ x, resample rng T mean sigma (some k) (some m) pop fuel i y r = .ok x := by
    induction fuel generalizing i y r with
    | zero => omega
    | succ fuel ih =>
      have hle : y.length ≤ pop := by
        have := acceptedRounds_length_le (rng := rng) (T := T) (mean := mean) (sigma := sigma)
          (k := k) (lambda := pop) i r0
        rwa [← hs] at this
      simp only [resample]
      rw [if_neg (by omega)]
      split
      · exact ⟨_, rfl⟩
      · by_cases him' : m ≤ i
        · have : i = m := by omega
          subst this
          simp only [le_refl, if_true]
          rw [sampleRound_none]
          simp only [Outcome.ok_bind]
          cases fuel with
          | zero => omega
          | succ fuel =>
            have hl : (y ++ (drawVecs rng (pop - y.length) r).1.map T.mulVec).length = pop := by
              simp only [List.length_append, List.length_map, drawVecs_length]; omega
            simp only [resample, hl, lt_irrefl, Nat.sub_self, if_false, if_true]
            exact ⟨_, rfl⟩
        · simp only [him', if_false]
          rw [sampleRound_some_total hk]
          simp only [Outcome.ok_bind]
          refine ih (i := i + 1) (by omega) (by omega) ?_
          simp only [acceptedRounds_succ, ← hs]
  obtain ⟨x, hx⟩ := key
  rw [hx, ← resample_limited him hs hx]

/-- The loop never panics if the constraints do not. -/
theorem resample_no_panic {cs : Option (Constraint F)} {mx : Option Nat} {pop fuel i : Nat}
    {y : List (Vec n F)} {r : R} (hk : ∀ c, cs = some c → ∀ x : Vec n F, ∃ b, c (List.ofFn x) = .ok b)
    (hy : y.length ≤ pop) {p : Panic} :
    resample rng T mean sigma cs mx pop fuel i y r ≠ .panic p := by
  induction fuel generalizing i y r with
  | zero => simp [resample]
  | succ fuel ih =>
    simp only [resample]
    rw [if_neg (by omega)]
    split
    · simp
    · rw [Ne, Outcome.bind_eq_panic]
      rintro (h | ⟨⟨new, r1⟩, h, h'⟩)
      · by_cases hm : ∃ m, mx = some m ∧ m ≤ i
        · obtain ⟨m, rfl, hm⟩ := hm
          simp only [hm, if_true] at h
          rw [sampleRound_none] at h
          simp at h
        · have key : sampleRound rng T mean sigma cs (pop - y.length) r ≠ .panic p := by
            cases cs with
            | none => rw [sampleRound_none]; simp
            | some c => rw [sampleRound_some_total (hk c rfl)]; simp
          cases mx with
          | none => exact key h
          | some m =>
            simp only [if_neg fun hmi => hm ⟨m, rfl, hmi⟩] at h
            exact key h
      · refine ih ?_ h'
        have := sampleRound_length h
        simp only [List.length_append]
        omega

end

/-! ### Every objective call is made on the point of a drawn step -/

theorem evalSeq_points {mean : Vec n F} {sigma : F} {ys : List (Vec n F)} {o o' : Obj n F}
    {res : Option (List (EvaluatedPoint n F))} {calls : List (Vec n F × F)}
    (h : evalSeq mean sigma ys o = (res, o')) (hl : o'.log = o.log ++ calls) :
    calls.map Prod.fst <+: ys.map (fun y => toPoint y mean sigma) := by
  induction ys generalizing o res calls with
  | nil =>
    simp only [evalSeq, Prod.mk.injEq] at h
    obtain ⟨_, rfl⟩ := h
    simp at hl
    subst hl
    simp
  | cons y ys ih =>
    obtain ⟨v, _, h2, _⟩ := new_spec y mean sigma o
    simp only [evalSeq] at h
    cases hnew : EvaluatedPoint.new y mean sigma o with
    | mk p o1 =>
      rw [hnew] at h h2
      simp only at h2
      cases p with
      | none =>
        simp only [Prod.mk.injEq] at h
        obtain ⟨_, rfl⟩ := h
        rw [h2] at hl
        simp only [List.append_cancel_left_eq] at hl
        subst hl
        simp
      | some p =>
        simp only at h
        cases hev : evalSeq mean sigma ys o1 with
        | mk res' o2 =>
          have ho : o' = o2 := by
            rw [hev] at h
            cases res' <;> simp only [Prod.mk.injEq] at h <;> exact h.2.symm
          subst ho
          obtain ⟨calls', hc, _⟩ := evalSeq_spec hev
          rw [h2] at hc
          have hcc : calls = (toPoint y mean sigma, v) :: calls' := by
            rw [hc] at hl
            simpa using hl.symm
          subst hcc
          have := ih hev (by rw [h2]; exact hc)
          simp only [List.map_cons]
          exact List.cons_prefix_cons.mpr ⟨rfl, this⟩

theorem evalPar_points {s : Sched} {mean : Vec n F} {sigma : F} {ys : List (Vec n F)}
    {o o' : Obj n F} {res : Option (List (EvaluatedPoint n F))} {calls : List (Vec n F × F)}
    (h : evalPar s mean sigma ys o = (res, o')) (hl : o'.log = o.log ++ calls) :
    (calls.map Prod.fst).Subperm (ys.map (fun y => toPoint y mean sigma)) := by
  cases hrs : evalOrder mean sigma ys s.extra (s.order ys.length) none o with
  | mk rs o1 =>
    have ho : o' = o1 := by
      unfold evalPar at h
      rw [hrs] at h
      simp only at h
      split at h <;> simp only [Prod.mk.injEq] at h <;> exact h.2.symm
    subst ho
    obtain ⟨calls', hc, -, hf, hpre, -⟩ := evalOrder_spec (fun i hi => by
      have := (s.perm ys.length).mem_iff.mp hi
      simpa using this) hrs
    rw [hc] at hl
    have : calls' = calls := List.append_cancel_left hl
    subst this
    let g : Nat → Option (Vec n F) := fun i => ys[i]?.map fun y => toPoint y mean sigma
    have h1 : calls'.map Prod.fst = (rs.map Prod.fst).filterMap g := by
      clear hpre hrs hl hc h
      induction hf with
      | nil => rfl
      | @cons r c rs cs hrc _ ih =>
        obtain ⟨y, hy, hc, _⟩ := hrc
        simp only [List.map_cons, List.filterMap_cons]
        have : g r.1 = some c.1 := by simp [g, hy, hc]
        rw [this, ih]
    have h2 : (List.range ys.length).filterMap g = ys.map (fun y => toPoint y mean sigma) := by
      apply List.ext_getElem?
      intro i
      have hmap : (List.range ys.length).map g =
          (ys.map (fun y => toPoint y mean sigma)).map some := by
        apply List.ext_getElem?
        intro j
        by_cases hj : j < ys.length
        · simp [g, hj]
        · simp [hj]
      have : (List.range ys.length).filterMap g = ((List.range ys.length).map g).filterMap id := by
        rw [List.filterMap_map]; rfl
      rw [this, hmap]
      simp
    rw [h1, ← h2]
    exact ((hpre.sublist.filterMap g).subperm).trans (((s.perm _).filterMap g).subperm)

theorem sample_points {env : Env n F R} {kind : EvalKind} {sched : Sched} {T : Mat n F}
    {mean : Vec n F} {sigma : F} {mode : Mode} {s s' : Sampler n F R}
    {res : Option (List (EvaluatedPoint n F))} {calls : List (Vec n F × F)}
    (h : s.sample env kind sched T mean sigma mode = .ok (res, s'))
    (hl : s'.obj.log = s.obj.log ++ calls) :
    ∃ ys, resample env.rng T mean sigma s.constraints s.maxResamples
        s.populationSize env.resampleFuel 0 [] s.rng = .ok (ys, s'.rng) ∧
      (calls.map Prod.fst).Subperm (ys.map (fun y => toPoint y mean sigma)) ∧
      (kind = .seq → calls.map Prod.fst <+: ys.map (fun y => toPoint y mean sigma)) := by
  unfold Sampler.sample at h
  rw [Outcome.bind_eq_ok] at h
  obtain ⟨⟨ys, r⟩, hr, h⟩ := h
  have key : ∀ (er : Option (List (EvaluatedPoint n F)) × Obj n F),
      (match er.1 with
        | none => Outcome.ok (none, ({ s with rng := r, obj := er.2 } : Sampler n F R))
        | some ps => Outcome.ok (some (sortPoints mode ps), { s with
            rng := r, obj := er.2, functionEvals := s.functionEvals + ps.length })) =
        Outcome.ok (res, s') → s'.obj = er.2 ∧ s'.rng = r := by
    rintro ⟨er, o⟩ h
    cases er <;> simp only [Outcome.ok.injEq, Prod.mk.injEq] at h <;> rw [← h.2] <;> simp
  cases kind with
  | seq =>
    obtain ⟨h1, h2⟩ := key _ h
    subst h2
    have := evalSeq_points (rfl : evalSeq mean sigma ys s.obj = (_, _))
      (calls := calls) (by rw [← hl, h1])
    exact ⟨ys, hr, this.sublist.subperm, fun _ => this⟩
  | par =>
    obtain ⟨h1, h2⟩ := key _ h
    subst h2
    have := evalPar_points (rfl : evalPar sched mean sigma ys s.obj = (_, _))
      (calls := calls) (by rw [← hl, h1])
    exact ⟨ys, hr, this, by simp⟩

/-- The calls of a `next` are made on points of the steps drawn for it. -/
theorem next_points [FltLaws F] {env : Env n F R} {kind : EvalKind} {c c' : CMAES n F R}
    {r : Option (TerminationData n F)} {calls : List (Vec n F × F)}
    (h : c.next env kind = .ok (c', r))
    (hl : c'.sampler.obj.log = c.sampler.obj.log ++ calls) :
    ∃ ys, drawnSteps env c = .ok (ys, c'.sampler.rng) ∧
      (calls.map Prod.fst).Subperm (ys.map (fun y => toPoint y c.state.mean c.state.sigma)) ∧
      (kind = .seq →
        calls.map Prod.fst <+: ys.map (fun y => toPoint y c.state.mean c.state.sigma)) := by
  have h' := h
  unfold CMAES.next at h
  simp only [Outcome.bind_eq_ok] at h
  obtain ⟨⟨res, s⟩, hs, h⟩ := h
  have hobj : c'.sampler.obj = s.obj ∧ c'.sampler.rng = s.rng := by
    cases res with
    | none =>
      simp only [Outcome.ok.injEq, Prod.mk.injEq] at h
      rw [← h.1]; simp
    | some inds =>
      simp only [Outcome.bind_eq_ok] at h
      obtain ⟨hist, hh, h⟩ := h
      unfold CMAES.nextInternal at h
      simp only [Outcome.bind_eq_ok] at h
      obtain ⟨⟨st, success⟩, hu, h⟩ := h
      cases success with
      | false =>
        simp only [Bool.false_eq_true, if_false, Outcome.ok.injEq, Prod.mk.injEq] at h
        rw [← h.1]; simp
      | true =>
        simp only [if_true, Outcome.bind_eq_ok] at h
        obtain ⟨c1, hc1, c2, hc2, h⟩ := h
        rw [(((sameSearch_autoPlot hc1).trans (sameSearch_autoPrint hc2)).trans
          (checkTermination_eq_ok h).1).sampler]
        simp
  rw [hobj.1] at hl
  rw [hobj.2]
  exact sample_points hs hl

end Cmaes
