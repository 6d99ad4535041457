import Verif.Spec.Unwind
import Verif.Witness
import Verif.Props.Best
import Verif.Lemmas.Exec
import Verif.Lemmas.Draws
import Verif.Props.NoPanic

/-!
# C85: a panic of user code that is caught leaves the `CMAES` intact
-/

set_option linter.unusedSectionVars false

namespace Cmaes
variable {n : Nat} {F R : Type} [Flt F] [FltLaws F] {env : Env n F R} {obj : Obj n F}
  {o : Options n F} {c c' : CMAES n F R} {pan : Panics n F} {kind : EvalKind}

theorem newU_silenced (y mean : Vec n F) (sigma : F) (b : Obj n F) :
    EvaluatedPoint.new y mean sigma (b.silenced pan) =
      ((EvaluatedPoint.newU pan y mean sigma b).1.value,
        (EvaluatedPoint.newU pan y mean sigma b).2.silenced pan) := by
  unfold EvaluatedPoint.new EvaluatedPoint.newU Obj.call Obj.callU Obj.silenced
  by_cases hp : pan b.log (toPoint y mean sigma) = true
  · simp [hp, FltLaws.isNaN_nan, Ended.value]
  · by_cases hn : Flt.isNaN (b.f b.log (toPoint y mean sigma)) = true <;>
      simp [hp, hn, Ended.value]

theorem evalSeqU_silenced (mean : Vec n F) (sigma : F) (ys : List (Vec n F)) (b : Obj n F) :
    evalSeq mean sigma ys (b.silenced pan) =
      ((evalSeqU pan mean sigma ys b).1.value, (evalSeqU pan mean sigma ys b).2.silenced pan) := by
  induction ys generalizing b with
  | nil => rfl
  | cons y ys ih =>
    simp only [evalSeq, evalSeqU, newU_silenced]
    rcases EvaluatedPoint.newU pan y mean sigma b with ⟨(_ | p) | _, b1⟩
    · rfl
    · simp only [Ended.value, ih]
      rcases evalSeqU pan mean sigma ys b1 with ⟨(_ | ps) | _, b2⟩ <;> rfl
    · rfl

theorem evalOrderU_silenced (mean : Vec n F) (sigma : F) (ys : List (Vec n F)) (extra : Nat)
    (is : List Nat) (left : Option Nat) (b : Obj n F) :
    evalOrder mean sigma ys extra is left (b.silenced pan) =
      ((evalOrderU pan mean sigma ys extra is left b).1.map fun e => (e.1, e.2.value),
        (evalOrderU pan mean sigma ys extra is left b).2.silenced pan) := by
  induction is generalizing left b with
  | nil => rfl
  | cons i is ih =>
    unfold evalOrder evalOrderU
    split
    · rfl
    · cases hy : ys[i]? with
      | none => simp only [ih]
      | some y =>
        simp only [newU_silenced]
        rcases EvaluatedPoint.newU pan y mean sigma b with ⟨(_ | p) | _, b1⟩ <;>
          cases left <;> simp only [Ended.value, ih, Option.isNone, List.map_cons] <;> rfl

private theorem lookup_map {α β : Type} (g : α → β) (l : List (Nat × α)) (i : Nat) :
    (l.map fun e => (e.1, g e.2)).lookup i = (l.lookup i).map g := by
  induction l with
  | nil => rfl
  | cons e l ih =>
    obtain ⟨k, a⟩ := e
    by_cases h : i == k <;> simp [List.lookup_cons, h, ih]

theorem evalParU_silenced (s : Sched) (mean : Vec n F) (sigma : F) (ys : List (Vec n F))
    (b : Obj n F) :
    evalPar s mean sigma ys (b.silenced pan) =
      ((evalParU pan s mean sigma ys b).1.value, (evalParU pan s mean sigma ys b).2.silenced pan) := by
  unfold evalPar evalParU
  rw [evalOrderU_silenced]
  rcases evalOrderU pan mean sigma ys s.extra (s.order ys.length) none b with ⟨rs, b1⟩
  simp only [List.any_map, Function.comp_def, lookup_map]
  have hj : ∀ i, (Option.map Ended.value (List.lookup i rs)).join =
      (List.lookup i rs).bind Ended.value := fun i => by cases List.lookup i rs <;> rfl
  simp only [hj]
  by_cases hu : (rs.any fun r => r.2.isUnwound) = true
  · have hn : (rs.any fun r => r.2.value.isNone) = true := by
      rw [List.any_eq_true] at hu ⊢
      obtain ⟨e, he, h⟩ := hu
      refine ⟨e, he, ?_⟩
      rcases e with ⟨i, _ | _⟩ <;> simp_all [Ended.isUnwound, Ended.value]
    rw [if_pos hn, if_pos hu]
    rfl
  · rw [if_neg hu]
    by_cases hn : (rs.any fun r => r.2.value.isNone) = true
    · rw [if_pos hn, if_pos hn]; rfl
    · rw [if_neg hn, if_neg hn]; rfl

/-- The resampling loop returns the same whether panics are followed or not. -/
theorem resampleU_returned {rng : RngOps R F} {T : Mat n F} {mean : Vec n F} {sigma : F}
    {cs : Option (Constraint F)} {mx : Option Nat} {pop fuel i : Nat} {y : List (Vec n F)} {r : R}
    {x : List (Vec n F) × R}
    (h : resampleU rng T mean sigma cs mx pop fuel i y r = .ok (.returned x)) :
    resample rng T mean sigma cs mx pop fuel i y r = .ok x := by
  induction fuel generalizing i y r with
  | zero => simp [resampleU] at h
  | succ fuel ih =>
    unfold resampleU at h
    unfold resample
    split
    · rw [if_pos (by assumption)] at h; simp at h
    · rw [if_neg (by assumption)] at h
      simp only at h ⊢
      split
      · rw [if_pos (by assumption)] at h
        simpa using h
      · rw [if_neg (by assumption)] at h
        revert h
        generalize sampleRound rng T mean sigma _ (pop - y.length) r = q
        intro h
        cases q with
        | ok a => exact ih h
        | panic p => simp at h
        | diverge => simp at h

/-- A round returns if no constraint panics. -/
theorem sampleRound_returns {rng : RngOps R F} {T : Mat n F} {mean : Vec n F} {sigma : F}
    {cs cs' : Option (Constraint F)} {m : Nat} {r : R}
    (hk : ∀ k, cs = some k → ∀ x : Vec n F, ∃ b, k (List.ofFn x) = .ok b)
    (hcs : cs' = cs ∨ cs' = none) : ∃ a, sampleRound rng T mean sigma cs' m r = .ok a := by
  have hf : ∀ (ok : Vec n F → Outcome Bool), (∀ y, ∃ b, ok y = .ok b) →
      ∀ l, ∃ a, filterOk ok l = .ok a := by
    intro ok hok l
    induction l with
    | nil => exact ⟨_, rfl⟩
    | cons z l ih =>
      obtain ⟨b, hb⟩ := hok z
      obtain ⟨a, ha⟩ := ih
      exact ⟨if b then z :: a else a, by simp only [filterOk, hb, ha, Outcome.ok_bind]⟩
  unfold sampleRound
  cases cs' with
  | none =>
    obtain ⟨a, ha⟩ := hf (fun _ => .ok true) (fun _ => ⟨_, rfl⟩) ((drawVecs rng m r).1.map T.mulVec)
    exact ⟨(a, (drawVecs (n := n) rng m r).2), by simp only [ha, Outcome.ok_bind]⟩
  | some k =>
    have hk' := hk k (by rcases hcs with e | e; exacts [e.symm, by cases e])
    obtain ⟨a, ha⟩ := hf (fun y => k (List.ofFn (toPoint y mean sigma))) (fun y => hk' _)
      ((drawVecs rng m r).1.map T.mulVec)
    exact ⟨(a, (drawVecs (n := n) rng m r).2), by simp only [ha, Outcome.ok_bind]⟩

/-- Without panics of constraints the loop is the same. -/
theorem resampleU_eq {rng : RngOps R F} {T : Mat n F} {mean : Vec n F} {sigma : F}
    {cs : Option (Constraint F)} {mx : Option Nat} {pop fuel i : Nat} {y : List (Vec n F)} {r : R}
    (hk : ∀ k, cs = some k → ∀ x : Vec n F, ∃ b, k (List.ofFn x) = .ok b) :
    resampleU rng T mean sigma cs mx pop fuel i y r =
      (resample rng T mean sigma cs mx pop fuel i y r >>= fun x => .ok (.returned x)) := by
  induction fuel generalizing i y r with
  | zero => rfl
  | succ fuel ih =>
    unfold resampleU resample
    split
    · rfl
    · simp only
      split
      · rfl
      · have key := fun {cs'} => sampleRound_returns (rng := rng) (T := T) (mean := mean)
          (sigma := sigma) (r := r) (m := pop - y.length) (cs' := cs') hk
        cases mx with
        | none =>
          obtain ⟨a, ha⟩ := key (.inl rfl)
          simp only [ha, Outcome.ok_bind, ih]
        | some m =>
          by_cases hm : m ≤ i
          · obtain ⟨a, ha⟩ := key (.inr rfl)
            simp only [if_pos hm, ha, Outcome.ok_bind, ih]
          · obtain ⟨a, ha⟩ := key (.inl rfl)
            simp only [if_neg hm, ha, Outcome.ok_bind, ih]

/-- Sampling that returns is sampling with the silenced objective. -/
theorem sampleU_returned {sched : Sched} {T : Mat n F} {mean : Vec n F} {sigma : F} {mode : Mode}
    {s s' : Sampler n F R} {res : Option (List (EvaluatedPoint n F))}
    (h : s.sampleU env pan kind sched T mean sigma mode = .ok (.returned (res, s'))) :
    Sampler.sample env kind sched T mean sigma mode { s with obj := s.obj.silenced pan } =
      .ok (res, { s' with obj := s'.obj.silenced pan }) := by
  unfold Sampler.sampleU at h
  rw [Outcome.bind_eq_ok] at h
  obtain ⟨x, hx, h⟩ := h
  cases x with
  | unwound r => simp at h
  | returned x =>
    obtain ⟨ys, r⟩ := x
    simp only at h
    unfold Sampler.sample
    simp only [resampleU_returned hx, Outcome.ok_bind]
    cases kind with
    | seq =>
      simp only [evalSeqU_silenced] at h ⊢
      revert h
      rcases evalSeqU pan mean sigma ys s.obj with ⟨(_ | ps) | _, b⟩ <;> intro h <;>
        simp only [Outcome.ok.injEq, Ended.returned.injEq, Prod.mk.injEq, reduceCtorEq] at h
      · obtain ⟨rfl, rfl⟩ := h; rfl
      · obtain ⟨rfl, rfl⟩ := h; rfl
    | par =>
      simp only [evalParU_silenced] at h ⊢
      revert h
      rcases evalParU pan sched mean sigma ys s.obj with ⟨(_ | ps) | _, b⟩ <;> intro h <;>
        simp only [Outcome.ok.injEq, Ended.returned.injEq, Prod.mk.injEq, reduceCtorEq] at h
      · obtain ⟨rfl, rfl⟩ := h; rfl
      · obtain ⟨rfl, rfl⟩ := h; rfl

/-- Sampling that a panic ended: a constraint panicked, or the objective did and the silenced
objective returns NaN. -/
theorem sampleU_unwound {sched : Sched} {T : Mat n F} {mean : Vec n F} {sigma : F} {mode : Mode}
    {s s' : Sampler n F R}
    (h : s.sampleU env pan kind sched T mean sigma mode = .ok (.unwound s')) :
    s' = { s with rng := s'.rng, obj := s'.obj } ∧
    ((s'.obj = s.obj ∧ resampleU env.rng T mean sigma s.constraints s.maxResamples
        s.populationSize env.resampleFuel 0 [] s.rng = .ok (.unwound s'.rng)) ∨
      Sampler.sample env kind sched T mean sigma mode { s with obj := s.obj.silenced pan } =
        .ok (none, { s' with obj := s'.obj.silenced pan })) := by
  unfold Sampler.sampleU at h
  rw [Outcome.bind_eq_ok] at h
  obtain ⟨x, hx, h⟩ := h
  cases x with
  | unwound r =>
    simp only [Outcome.ok.injEq, Ended.unwound.injEq] at h
    subst h
    exact ⟨rfl, .inl ⟨rfl, hx⟩⟩
  | returned x =>
    obtain ⟨ys, r⟩ := x
    simp only at h
    unfold Sampler.sample
    simp only [resampleU_returned hx, Outcome.ok_bind]
    cases kind with
    | seq =>
      simp only [evalSeqU_silenced] at h ⊢
      revert h
      rcases evalSeqU pan mean sigma ys s.obj with ⟨(_ | ps) | _, b⟩ <;> intro h <;>
        simp only [Outcome.ok.injEq, Ended.unwound.injEq, reduceCtorEq] at h
      subst h
      exact ⟨rfl, .inr rfl⟩
    | par =>
      simp only [evalParU_silenced] at h ⊢
      revert h
      rcases evalParU pan sched mean sigma ys s.obj with ⟨(_ | ps) | _, b⟩ <;> intro h <;>
        simp only [Outcome.ok.injEq, Ended.unwound.injEq, reduceCtorEq] at h
      subst h
      exact ⟨rfl, .inr rfl⟩

/-! ### Who panicked -/

theorem panickedIn_cons {log calls : List (Vec n F × F)} {e : Vec n F × F} :
    PanickedIn pan log (e :: calls) ↔ pan log e.1 = true ∨ PanickedIn pan (log ++ [e]) calls := by
  constructor
  · rintro ⟨pre, x, v, post, h, hp⟩
    cases pre with
    | nil =>
      simp only [List.nil_append, List.cons.injEq] at h
      obtain ⟨rfl, rfl⟩ := h
      left; simpa using hp
    | cons a pre =>
      simp only [List.cons_append, List.cons.injEq] at h
      obtain ⟨rfl, rfl⟩ := h
      exact .inr ⟨pre, x, v, post, rfl, by simpa using hp⟩
  · rintro (h | ⟨pre, x, v, post, rfl, hp⟩)
    · exact ⟨[], e.1, e.2, calls, rfl, by simpa using h⟩
    · exact ⟨e :: pre, x, v, post, rfl, by simpa using hp⟩

theorem not_panickedIn_nil {log : List (Vec n F × F)} : ¬ PanickedIn pan log [] := by
  rintro ⟨pre, x, v, post, h, _⟩
  simp at h

theorem newU_call (y mean : Vec n F) (sigma : F) (b : Obj n F) :
    ∃ e, (EvaluatedPoint.newU pan y mean sigma b).2 = { b with log := b.log ++ [e] } ∧
      ((EvaluatedPoint.newU pan y mean sigma b).1.isUnwound = true ↔ pan b.log e.1 = true) := by
  unfold EvaluatedPoint.newU Obj.callU
  by_cases hp : pan b.log (toPoint y mean sigma) = true
  · exact ⟨(toPoint y mean sigma, Flt.nan), by simp only [hp, if_true],
      by simp [hp, Ended.isUnwound]⟩
  · refine ⟨(toPoint y mean sigma, b.f b.log (toPoint y mean sigma)), ?_, ?_⟩ <;>
      by_cases hn : Flt.isNaN (b.f b.log (toPoint y mean sigma)) = true <;>
      simp [hp, hn, Ended.isUnwound]

theorem evalSeqU_calls (mean : Vec n F) (sigma : F) (ys : List (Vec n F)) (b : Obj n F) :
    ∃ calls, (evalSeqU pan mean sigma ys b).2 = { b with log := b.log ++ calls } ∧
      ((evalSeqU pan mean sigma ys b).1.isUnwound = true ↔ PanickedIn pan b.log calls) := by
  induction ys generalizing b with
  | nil => exact ⟨[], by simp [evalSeqU], by simp [evalSeqU, Ended.isUnwound, not_panickedIn_nil]⟩
  | cons y ys ih =>
    obtain ⟨e, h1, h2⟩ := newU_call (pan := pan) y mean sigma b
    simp only [evalSeqU]
    revert h1 h2
    rcases EvaluatedPoint.newU pan y mean sigma b with ⟨(_ | p) | _, b1⟩ <;> intro h1 h2 <;>
      simp only at h1 h2 <;> subst h1
    · refine ⟨[e], rfl, ?_⟩
      rw [panickedIn_cons]
      simp only [not_panickedIn_nil, or_false]
      exact h2
    · obtain ⟨calls, h3, h4⟩ := ih { b with log := b.log ++ [e] }
      dsimp only
      generalize evalSeqU pan mean sigma ys { b with log := b.log ++ [e] } = q at h3 h4 ⊢
      refine ⟨e :: calls, ?_, ?_⟩
      · rcases q with ⟨(_ | ps) | _, b2⟩ <;> simp only at h3 <;> subst h3 <;> simp
      · rw [panickedIn_cons, ← h2, ← h4]
        rcases q with ⟨(_ | ps) | _, b2⟩ <;> simp [Ended.isUnwound]
    · refine ⟨[e], rfl, ?_⟩
      rw [panickedIn_cons]
      simp only [not_panickedIn_nil, or_false]
      exact h2

theorem evalOrderU_calls (mean : Vec n F) (sigma : F) (ys : List (Vec n F)) (extra : Nat)
    (is : List Nat) (left : Option Nat) (b : Obj n F) :
    ∃ calls, (evalOrderU pan mean sigma ys extra is left b).2 =
        { b with log := b.log ++ calls } ∧
      (((evalOrderU pan mean sigma ys extra is left b).1.any fun r => r.2.isUnwound) = true ↔
        PanickedIn pan b.log calls) := by
  induction is generalizing left b with
  | nil => exact ⟨[], by simp [evalOrderU], by simp [evalOrderU, not_panickedIn_nil]⟩
  | cons i is ih =>
    unfold evalOrderU
    split
    · exact ⟨[], by simp, by simp [not_panickedIn_nil]⟩
    · cases hy : ys[i]? with
      | none => exact ih left b
      | some y =>
        obtain ⟨e, h1, h2⟩ := newU_call (pan := pan) y mean sigma b
        have key : ∀ left', ∃ calls,
            (evalOrderU pan mean sigma ys extra is left' { b with log := b.log ++ [e] }).2 =
              { b with log := b.log ++ calls } ∧
            ((((i, (EvaluatedPoint.newU pan y mean sigma b).1) ::
              (evalOrderU pan mean sigma ys extra is left' { b with log := b.log ++ [e] }).1).any
                fun r => r.2.isUnwound) = true ↔ PanickedIn pan b.log calls) := by
          intro left'
          obtain ⟨calls, h3, h4⟩ := ih left' { b with log := b.log ++ [e] }
          refine ⟨e :: calls, ?_, ?_⟩
          · rw [h3]; simp
          · rw [panickedIn_cons, ← h2, ← h4, List.any_cons, Bool.or_eq_true]
        simp only [h1]
        exact key _

theorem evalParU_calls (s : Sched) (mean : Vec n F) (sigma : F) (ys : List (Vec n F)) (b : Obj n F) :
    ∃ calls, (evalParU pan s mean sigma ys b).2 = { b with log := b.log ++ calls } ∧
      ((evalParU pan s mean sigma ys b).1.isUnwound = true ↔ PanickedIn pan b.log calls) := by
  obtain ⟨calls, h1, h2⟩ := evalOrderU_calls (pan := pan) mean sigma ys s.extra
    (s.order ys.length) none b
  refine ⟨calls, ?_, ?_⟩
  · rw [← h1]
    unfold evalParU
    split
    split
    · simp_all
    · split <;> simp_all
  · rw [← h2]
    unfold evalParU
    split
    next rs b1 he =>
    rw [he]
    simp only
    split
    · simp_all [Ended.isUnwound]
    · split <;> simp_all [Ended.isUnwound]

theorem sampleRound_panic {rng : RngOps R F} {T : Mat n F} {mean : Vec n F} {sigma : F}
    {cs : Option (Constraint F)} {m : Nat} {r : R} {p : Panic}
    (h : sampleRound rng T mean sigma cs m r = .panic p) : PanickingConstraint n cs := by
  by_contra hc
  unfold sampleRound at h
  rw [Outcome.bind_eq_panic] at h
  have hf : ∀ (ok : Vec n F → Outcome Bool), (∀ y q, ok y ≠ .panic q) →
      ∀ l q, filterOk ok l ≠ .panic q := by
    intro ok hok l
    induction l with
    | nil => intro q h; simp [filterOk] at h
    | cons z l ih =>
      intro q h
      simp only [filterOk] at h
      rw [Outcome.bind_eq_panic] at h
      rcases h with h | ⟨b, _, h⟩
      · exact hok _ _ h
      · rw [Outcome.bind_eq_panic] at h
        rcases h with h | ⟨b, _, h⟩
        · exact ih _ h
        · simp at h
  rcases h with h | ⟨a, _, h⟩
  · refine hf _ ?_ _ _ h
    intro y q hy
    cases cs with
    | none => simp at hy
    | some k => exact hc ⟨k, rfl, _, q, hy⟩
  · simp at h

theorem resampleU_unwound {rng : RngOps R F} {T : Mat n F} {mean : Vec n F} {sigma : F}
    {cs : Option (Constraint F)} {mx : Option Nat} {pop fuel i : Nat} {y : List (Vec n F)} {r r' : R}
    (h : resampleU rng T mean sigma cs mx pop fuel i y r = .ok (.unwound r')) :
    (∃ m, r' = rng.after r m) ∧ PanickingConstraint n cs := by
  induction fuel generalizing i y r with
  | zero => simp [resampleU] at h
  | succ fuel ih =>
    unfold resampleU at h
    split at h
    · simp at h
    · simp only at h
      split at h
      · simp at h
      · have key : ∀ cs', (cs' = cs ∨ cs' = none) →
            (match sampleRound rng T mean sigma cs' (pop - y.length) r with
              | .ok (new, r) => resampleU rng T mean sigma cs mx pop fuel (i + 1) (y ++ new) r
              | .panic _ => .ok (.unwound (drawVecs (n := n) rng (pop - y.length) r).2)
              | .diverge => .diverge) = .ok (.unwound r') →
            (∃ m, r' = rng.after r m) ∧ PanickingConstraint n cs := by
          intro cs' hcs h
          cases hq : sampleRound rng T mean sigma cs' (pop - y.length) r with
          | ok a =>
            rw [hq] at h
            obtain ⟨new, r1⟩ := a
            simp only at h
            obtain ⟨⟨m, hm⟩, hp⟩ := ih h
            refine ⟨?_, hp⟩
            unfold sampleRound at hq
            rw [Outcome.bind_eq_ok] at hq
            obtain ⟨_, _, hq⟩ := hq
            simp only [Outcome.ok.injEq, Prod.mk.injEq] at hq
            refine ⟨(pop - y.length) * n + m, ?_⟩
            rw [hm, ← hq.2, drawVecs_rng, after_add]
          | panic p =>
            rw [hq] at h
            simp only [Outcome.ok.injEq, Ended.unwound.injEq] at h
            refine ⟨⟨(pop - y.length) * n, by rw [← h, drawVecs_rng]⟩, ?_⟩
            rcases hcs with rfl | rfl
            · exact sampleRound_panic hq
            · obtain ⟨k, hk, _⟩ := sampleRound_panic hq
              cases hk
          | diverge => rw [hq] at h; simp at h
        refine key _ ?_ h
        cases mx with
        | none => exact .inl rfl
        | some m => by_cases hm : m ≤ i <;> simp [hm]

/-! ### `next` -/

theorem autoPlot_silenced (c : CMAES n F R) :
    (c.silenced pan).autoPlot = (c.autoPlot >>= fun c => .ok (c.silenced pan)) := by
  unfold CMAES.autoPlot
  show (match c.plot with | none => _ | some p => _) = _
  cases hp : c.plot with
  | none => rfl
  | some p =>
    simp only
    show (if c.state.generation ≤ 1 then _ else _) = _
    by_cases hg : c.state.generation ≤ 1
    · rw [if_pos hg, if_pos hg]; rfl
    · rw [if_neg hg, if_neg hg]
      cases p.nextDataPointEvals with
      | ok m =>
        simp only [Outcome.ok_bind]
        show Outcome.ok (if m ≤ c.sampler.functionEvals then _ else _) = _
        by_cases hm : m ≤ c.sampler.functionEvals
        · rw [if_pos hm, if_pos hm]; rfl
        · rw [if_neg hm, if_neg hm]
      | panic q => rfl
      | diverge => rfl

theorem autoPrint_silenced (c : CMAES n F R) :
    (c.silenced pan).autoPrint = (c.autoPrint >>= fun c => .ok (c.silenced pan)) := by
  unfold CMAES.autoPrint
  show (match c.printGapEvals with | none => _ | some p => _) = _
  cases hp : c.printGapEvals with
  | none => rfl
  | some gap =>
    simp only
    show (usizeAdd c.lastPrintEvals gap >>= _) = _
    cases usizeAdd c.lastPrintEvals gap with
    | ok m =>
      simp only [Outcome.ok_bind]
      show Outcome.ok (if m ≤ c.sampler.functionEvals then _ else
        if c.state.generation < 4 then _ else _) = _
      by_cases hm : m ≤ c.sampler.functionEvals
      · rw [if_pos hm, if_pos hm]; rfl
      · rw [if_neg hm, if_neg hm]
        by_cases hg : c.state.generation < 4
        · rw [if_pos hg, if_pos hg]; rfl
        · rw [if_neg hg, if_neg hg]
    | panic q => rfl
    | diverge => rfl

theorem checkTermination_silenced (inds : List (EvaluatedPoint n F)) (c : CMAES n F R) :
    (c.silenced pan).checkTermination env inds =
      (c.checkTermination env inds >>= fun x => .ok (x.1.silenced pan, x.2)) := by
  unfold CMAES.checkTermination
  show (TerminationCheck.check _ _ >>= _) = ((TerminationCheck.check _ _ >>= _) >>= _)
  rw [bind_assoc]
  refine congrArg _ (funext fun reasons => ?_)
  rfl

theorem nextInternal_silenced (tree : SplitTree) (inds : List (EvaluatedPoint n F))
    (c : CMAES n F R) :
    (c.silenced pan).nextInternal env tree inds =
      (c.nextInternal env tree inds >>= fun x => .ok (x.1.silenced pan, x.2)) := by
  unfold CMAES.nextInternal
  show (c.state.update env.eigen tree c.sampler.functionEvals c.parameters inds >>= _) = _
  cases c.state.update env.eigen tree c.sampler.functionEvals c.parameters inds with
  | ok x =>
    obtain ⟨st, b⟩ := x
    simp only [Outcome.ok_bind]
    cases b with
    | false => rfl
    | true =>
      simp only [if_true]
      show ((({ c with state := st } : CMAES n F R).silenced pan).autoPlot >>= _) = _
      rw [autoPlot_silenced]
      simp only [bind_assoc, Outcome.ok_bind]
      refine congrArg _ (funext fun c1 => ?_)
      rw [autoPrint_silenced]
      simp only [bind_assoc, Outcome.ok_bind]
      refine congrArg _ (funext fun c2 => ?_)
      rw [checkTermination_silenced]
  | panic q => rfl
  | diverge => rfl

theorem sampleU_eq {sched : Sched} {T : Mat n F} {mean : Vec n F} {sigma : F} {mode : Mode}
    {s : Sampler n F R}
    (hk : ∀ k, s.constraints = some k → ∀ x : Vec n F, ∃ b, k (List.ofFn x) = .ok b) :
    Sampler.sample env kind sched T mean sigma mode { s with obj := s.obj.silenced pan } =
      (s.sampleU env pan kind sched T mean sigma mode >>= fun x => .ok (match x with
        | .returned (res, s') => (res, { s' with obj := s'.obj.silenced pan })
        | .unwound s' => (none, { s' with obj := s'.obj.silenced pan }))) := by
  cases hr : resample env.rng T mean sigma s.constraints s.maxResamples s.populationSize
      env.resampleFuel 0 [] s.rng with
  | panic p =>
    unfold Sampler.sample Sampler.sampleU
    simp only [resampleU_eq hk, hr, Outcome.panic_bind]
  | diverge =>
    unfold Sampler.sample Sampler.sampleU
    simp only [resampleU_eq hk, hr, Outcome.diverge_bind]
  | ok x =>
    have hu := resampleU_eq (rng := env.rng) (T := T) (mean := mean) (sigma := sigma)
      (mx := s.maxResamples) (pop := s.populationSize) (fuel := env.resampleFuel) (i := 0) (y := [])
      (r := s.rng) hk
    rw [hr, Outcome.ok_bind] at hu
    have : ∃ e, s.sampleU env pan kind sched T mean sigma mode = .ok e := by
      unfold Sampler.sampleU
      rw [hu]
      simp only [Outcome.ok_bind]
      split
      · exact ⟨_, rfl⟩
      · exact ⟨_, rfl⟩
      · exact ⟨_, rfl⟩
    obtain ⟨e, he⟩ := this
    rw [he, Outcome.ok_bind]
    cases e with
    | returned y => exact sampleU_returned he
    | unwound s' =>
      rcases (sampleU_unwound he).2 with ⟨_, h⟩ | h
      · rw [hu] at h; simp at h
      · exact h

/-- **C85, a panic looks like NaN.** If the constraints do not panic, a call of `next` with an
objective that may panic is the same call with an objective that returns NaN instead: it returns the
same and leaves the same behind if it returns, and a panic leaves behind what is left behind when
`InvalidFunctionValue` is returned. -/
theorem c85_silenced (pan : Panics n F) (c : CMAES n F R) (kind : EvalKind)
    (hk : ∀ k, c.sampler.constraints = some k → ∀ x : Vec n F, ∃ b, k (List.ofFn x) = .ok b) :
    (c.silenced pan).next env kind =
      (c.nextU env pan kind >>= fun x => .ok (asFailure pan x)) := by
  unfold CMAES.next CMAES.nextU
  show (Sampler.sample env kind _ _ _ _ _ { c.sampler with obj := c.sampler.obj.silenced pan } >>= _)
    = _
  rw [sampleU_eq hk]
  simp only [bind_assoc, Outcome.ok_bind]
  show (c.sampler.sampleU env pan kind (env.sched c.world.steps) c.state.cov.transform c.state.mean
    c.state.sigma c.parameters.mode >>= _) = _
  refine congrArg _ (funext fun x => ?_)
  rcases x with ⟨_ | inds, s'⟩ | s'
  · rfl
  · simp only
    show (c.history.update c.parameters.mode inds >>= _) = _
    simp only [bind_assoc, Outcome.ok_bind]
    refine congrArg _ (funext fun h => ?_)
    exact nextInternal_silenced (env := env) (pan := pan) (env.redTree c.world.steps) inds
      { c with sampler := s', history := h,
               world := { c.world with steps := c.world.steps + 1 } }
  · rfl

theorem nextInternal_sampler {tree : SplitTree} {inds : List (EvaluatedPoint n F)}
    {r : Option (TerminationData n F)} (h : c.nextInternal env tree inds = .ok (c', r)) :
    c'.sampler = c.sampler := by
  unfold CMAES.nextInternal at h
  rw [Outcome.bind_eq_ok] at h
  obtain ⟨⟨st, b⟩, _, h⟩ := h
  cases b with
  | false =>
    simp only [Bool.false_eq_true, if_false, Outcome.ok.injEq, Prod.mk.injEq] at h
    rw [← h.1]
  | true =>
    simp only [if_true] at h
    rw [Outcome.bind_eq_ok] at h
    obtain ⟨c1, h1, h⟩ := h
    rw [Outcome.bind_eq_ok] at h
    obtain ⟨c2, h2, h⟩ := h
    have e1 : c1.sampler = c.sampler := by
      unfold CMAES.autoPlot at h1
      split at h1
      · simp only [Outcome.ok.injEq] at h1; rw [← h1]
      · split at h1
        · simp only [Outcome.ok.injEq] at h1; rw [← h1]; rfl
        · rw [Outcome.bind_eq_ok] at h1
          obtain ⟨m, _, h1⟩ := h1
          simp only [Outcome.ok.injEq] at h1
          rw [← h1]
          split <;> rfl
    have e2 : c2.sampler = c1.sampler := by
      unfold CMAES.autoPrint at h2
      split at h2
      · simp only [Outcome.ok.injEq] at h2; rw [← h2]
      · rw [Outcome.bind_eq_ok] at h2
        obtain ⟨m, _, h2⟩ := h2
        simp only [Outcome.ok.injEq] at h2
        rw [← h2]
        split
        · rfl
        · split <;> rfl
    unfold CMAES.checkTermination at h
    simp only at h
    rw [Outcome.bind_eq_ok] at h
    obtain ⟨rs, _, h⟩ := h
    simp only [Outcome.ok.injEq, Prod.mk.injEq] at h
    rw [← h.1, ← e1, ← e2]

/-- A call of `next` that returned or was unwound, and the sampling it made. -/
theorem nextU_sample {x : Ended (CMAES n F R) (CMAES n F R × Option (TerminationData n F))}
    (h : c.nextU env pan kind = .ok x) :
    (∃ s', c.sampler.sampleU env pan kind (env.sched c.world.steps) c.state.cov.transform
        c.state.mean c.state.sigma c.parameters.mode = .ok (.unwound s') ∧
      x = .unwound { c with sampler := s', world := { c.world with steps := c.world.steps + 1 } }) ∨
    (∃ res s' c' r, c.sampler.sampleU env pan kind (env.sched c.world.steps) c.state.cov.transform
        c.state.mean c.state.sigma c.parameters.mode = .ok (.returned (res, s')) ∧
      x = .returned (c', r) ∧ c'.sampler = s') := by
  unfold CMAES.nextU at h
  simp only at h
  rw [Outcome.bind_eq_ok] at h
  obtain ⟨y, hy, h⟩ := h
  rcases y with ⟨res, s'⟩ | s'
  · right
    cases res with
    | none =>
      simp only [Outcome.ok.injEq] at h
      exact ⟨_, _, _, _, hy, h.symm, rfl⟩
    | some inds =>
      simp only at h
      rw [Outcome.bind_eq_ok] at h
      obtain ⟨hist, _, h⟩ := h
      rw [Outcome.bind_eq_ok] at h
      obtain ⟨⟨c', r⟩, hn, h⟩ := h
      simp only [Outcome.ok.injEq] at h
      refine ⟨_, _, c', r, hy, h.symm, ?_⟩
      have := nextInternal_sampler hn
      rw [this]
  · left
    simp only [Outcome.ok.injEq] at h
    exact ⟨s', hy, h.symm⟩

theorem sampleU_calls {sched : Sched} {T : Mat n F} {mean : Vec n F} {sigma : F} {mode : Mode}
    {s : Sampler n F R}
    {x : Ended (Sampler n F R) (Option (List (EvaluatedPoint n F)) × Sampler n F R)}
    (h : s.sampleU env pan kind sched T mean sigma mode = .ok x) :
    (∃ r', x = .unwound { s with rng := r' } ∧ (∃ m, r' = env.rng.after s.rng m) ∧
      PanickingConstraint n s.constraints) ∨
    (∃ r' calls, (∃ ys, resample env.rng T mean sigma s.constraints s.maxResamples s.populationSize
        env.resampleFuel 0 [] s.rng = .ok (ys, r')) ∧
      ((x = .unwound { s with rng := r', obj := { s.obj with log := s.obj.log ++ calls } } ∧
        PanickedIn pan s.obj.log calls) ∨
       (∃ res s', x = .returned (res, s') ∧ s'.obj = { s.obj with log := s.obj.log ++ calls } ∧
        ¬ PanickedIn pan s.obj.log calls))) := by
  unfold Sampler.sampleU at h
  rw [Outcome.bind_eq_ok] at h
  obtain ⟨y, hy, h⟩ := h
  rcases y with ⟨ys, r⟩ | r
  · right
    simp only at h
    have key : ∀ {q : Ended Unit (Option (List (EvaluatedPoint n F))) × Obj n F},
        (∃ calls, q.2 = { s.obj with log := s.obj.log ++ calls } ∧
          (q.1.isUnwound = true ↔ PanickedIn pan s.obj.log calls)) →
        ((match q.1 with
          | .unwound _ => .ok (.unwound { s with rng := r, obj := q.2 })
          | .returned none => .ok (.returned (none, { s with rng := r, obj := q.2 }))
          | .returned (some ps) => .ok (.returned (some (sortPoints mode ps),
              { s with rng := r, obj := q.2, functionEvals := s.functionEvals + ps.length })) :
            Outcome (Ended (Sampler n F R) (Option (List (EvaluatedPoint n F)) × Sampler n F R))) =
            .ok x) → ∃ calls,
        ((x = .unwound { s with rng := r, obj := { s.obj with log := s.obj.log ++ calls } } ∧
          PanickedIn pan s.obj.log calls) ∨
         (∃ res s', x = .returned (res, s') ∧ s'.obj = { s.obj with log := s.obj.log ++ calls } ∧
          ¬ PanickedIn pan s.obj.log calls)) := by
      rintro ⟨(_ | ps) | _, b⟩ ⟨calls, h1, h2⟩ h <;> simp only at h h1 h2 <;> subst h1 <;>
        simp only [Outcome.ok.injEq] at h <;> subst h <;> refine ⟨calls, ?_⟩
      · exact .inr ⟨_, _, rfl, rfl, fun hp => by simpa [Ended.isUnwound] using h2.mpr hp⟩
      · exact .inr ⟨_, _, rfl, rfl, fun hp => by simpa [Ended.isUnwound] using h2.mpr hp⟩
      · exact .inl ⟨rfl, h2.mp rfl⟩
    refine ⟨r, ?_⟩
    cases kind with
    | seq =>
      obtain ⟨calls, hc⟩ := key (evalSeqU_calls mean sigma ys s.obj) h
      exact ⟨calls, ⟨ys, resampleU_returned hy⟩, hc⟩
    | par =>
      obtain ⟨calls, hc⟩ := key (evalParU_calls sched mean sigma ys s.obj) h
      exact ⟨calls, ⟨ys, resampleU_returned hy⟩, hc⟩
  · left
    simp only [Outcome.ok.injEq] at h
    obtain ⟨h1, h2⟩ := resampleU_unwound hy
    exact ⟨r, h.symm, h1, h2⟩

/-- **C85, intact.** If a panic of the objective function or of a constraint is unwound through
`next`, everything a user can see of the `CMAES` is as before the call. The generator has moved on
by some draws and the objective has seen some calls. One of these calls panicked, or no call was
made and the constraints panic for some point. -/
theorem c85_intact (h : c.nextU env pan kind = .ok (.unwound c')) :
    Intact c c' ∧ ∃ calls,
      c'.intoObjectiveFunction = { c.intoObjectiveFunction with
        log := c.intoObjectiveFunction.log ++ calls } ∧
      (PanickedIn pan c.intoObjectiveFunction.log calls ∨
        calls = [] ∧ PanickingConstraint n c.sampler.constraints ∧
          ∃ m, c'.sampler.rng = env.rng.after c.sampler.rng m) := by
  rcases nextU_sample h with ⟨s', hs, hx⟩ | ⟨_, _, _, _, _, hx, _⟩
  · simp only [Ended.unwound.injEq] at hx
    subst hx
    have hs' := (sampleU_unwound hs).1
    have hev : s'.functionEvals = c.sampler.functionEvals := by rw [hs']
    refine ⟨⟨rfl, rfl, rfl, rfl, rfl, rfl, hev, rfl, rfl, rfl, rfl, rfl, ?_⟩, ?_⟩
    · simp only
      rw [← hs']
    · rcases sampleU_calls hs with ⟨r', hx, hm, hp⟩ | ⟨r', calls, _, ⟨hx, hp⟩ | ⟨_, _, hx, _⟩⟩
      · simp only [Ended.unwound.injEq] at hx
        subst hx
        exact ⟨[], by simp [CMAES.intoObjectiveFunction], .inr ⟨rfl, hp, hm⟩⟩
      · simp only [Ended.unwound.injEq] at hx
        subst hx
        exact ⟨calls, rfl, .inl hp⟩
      · cases hx
  · cases hx

/-- **C85, only panics.** A call of `next` during which a call of the objective panics does not
return: if it returns, none of the calls it made panicked. -/
theorem c85_returned {r : Option (TerminationData n F)}
    (h : c.nextU env pan kind = .ok (.returned (c', r))) :
    ∃ calls, c'.intoObjectiveFunction = { c.intoObjectiveFunction with
        log := c.intoObjectiveFunction.log ++ calls } ∧
      ¬ PanickedIn pan c.intoObjectiveFunction.log calls := by
  rcases nextU_sample h with ⟨s', hs, hx⟩ | ⟨res, s', d, r', hs, hx, hd⟩
  · cases hx
  · simp only [Ended.returned.injEq, Prod.mk.injEq] at hx
    obtain ⟨rfl, rfl⟩ := hx
    rcases sampleU_calls hs with ⟨r', hx, hm, hp⟩ | ⟨r', calls, _, ⟨hx, hp⟩ | ⟨_, _, hx, h1, h2⟩⟩
    · cases hx
    · cases hx
    · simp only [Ended.returned.injEq, Prod.mk.injEq] at hx
      obtain ⟨rfl, rfl⟩ := hx
      refine ⟨calls, ?_, h2⟩
      show c'.sampler.obj = _
      rw [hd, h1]
      rfl

/-- **C85, without panics nothing changes.** If neither objective nor constraints panic, this is
the `next` of the other properties. -/
theorem c85_conservative (hp : ∀ log x, pan log x = false)
    (hk : ∀ k, c.sampler.constraints = some k → ∀ x : Vec n F, ∃ b, k (List.ofFn x) = .ok b) :
    c.nextU env pan kind = (c.next env kind >>= fun x => .ok (.returned x)) := by
  have hsil : ∀ c : CMAES n F R, c.silenced pan = c := by
    intro c
    have : c.sampler.obj.silenced pan = c.sampler.obj := by
      unfold Obj.silenced
      simp [hp]
    unfold CMAES.silenced
    rw [this]
  have h := c85_silenced (env := env) pan c kind hk
  rw [hsil] at h
  rw [h, bind_assoc]
  cases hu : c.nextU env pan kind with
  | panic p => rfl
  | diverge => rfl
  | ok x =>
    simp only [Outcome.ok_bind]
    cases x with
    | returned x =>
      obtain ⟨c', r⟩ := x
      simp only [asFailure, hsil]
    | unwound c' =>
      exfalso
      obtain ⟨_, calls, _, ⟨pre, x, v, post, _, hpan⟩ | ⟨_, ⟨k, hk', x, p, hx⟩, _⟩⟩ :=
        c85_intact hu
      · rw [hp] at hpan; cases hpan
      · obtain ⟨b, hb⟩ := hk k hk' x
        rw [hb] at hx; cases hx

theorem apply_silenced {op : Op} (hq : op.Quiet) {r : Option (TerminationData n F)}
    (h : c.apply env op = .ok (c', r)) :
    (c.silenced pan).apply env op = .ok (c'.silenced pan, r) := by
  cases op with
  | next k => exact absurd hq (by simp [Op.Quiet])
  | run k => exact absurd hq (by simp [Op.Quiet])
  | clearPlot =>
    unfold CMAES.apply CMAES.clearPlot at h ⊢
    show ((match c.plot with | none => _ | some p => _) >>= _) = _
    cases hp : c.plot with
    | none =>
      simp only [hp, Outcome.ok_bind, Outcome.ok.injEq, Prod.mk.injEq] at h ⊢
      obtain ⟨rfl, rfl⟩ := h
      exact ⟨rfl, rfl⟩
    | some p =>
      simp only [hp] at h ⊢
      cases hc : p.clear with
      | ok q =>
        simp only [hc, Outcome.ok_bind, Outcome.ok.injEq, Prod.mk.injEq] at h ⊢
        obtain ⟨rfl, rfl⟩ := h
        exact ⟨rfl, rfl⟩
      | panic q => simp [hc] at h
      | diverge => simp [hc] at h
  | printFinalInfo rs =>
    simp only [CMAES.apply, Outcome.ok.injEq, Prod.mk.injEq] at h ⊢
    obtain ⟨rfl, rfl⟩ := h
    refine ⟨?_, rfl⟩
    have hif : (if (c.silenced pan).sampler.functionEvals ≠ (c.silenced pan).lastPrintEvals then
        (c.silenced pan).printInfo else c.silenced pan) =
        (if c.sampler.functionEvals ≠ c.lastPrintEvals then c.printInfo else c).silenced pan := by
      show (if c.sampler.functionEvals ≠ c.lastPrintEvals then _ else _) = _
      split <;> rfl
    unfold CMAES.printFinalInfo
    simp only [hif]
    rfl
  | _ =>
    simp only [CMAES.apply, Outcome.ok.injEq, Prod.mk.injEq] at h ⊢
    obtain ⟨rfl, rfl⟩ := h
    exact ⟨rfl, rfl⟩

/-- **C85, histories.** A history in which the caller caught panics of the objective and went on is
a history of the objective that returns NaN instead, with the same calls of the objective: what the
other properties say about histories with `InvalidFunctionValue` holds for it. -/
theorem c85_history {t : List (Attempt n F)} {w : World n F} {c0 : CMAES n F R}
    (h0 : CMAES.new env w obj o = .ok c0) (h : ExecU env pan c0 t c)
    (hk : ∀ k, o.constraints = some k → ∀ x : Vec n F, ∃ b, k (List.ofFn x) = .ok b) :
    ∃ u, List.Forall₂ Attempt.LooksLike t u ∧
      History.Of env (obj.silenced pan) o u (c.silenced pan) := by
  have hnew : CMAES.new env w (obj.silenced pan) o = .ok (c0.silenced pan) := by
    obtain ⟨hv, rfl⟩ := new_eq_ok h0
    simp only [CMAES.new, hv]
    unfold CMAES.create
    by_cases hg : o.printGapEvals.isSome = true
    · simp only [CMAES.addPlotPoint, hg, if_true]; rfl
    · simp only [CMAES.addPlotPoint, hg]; rfl
  have step : ∀ {u : List (NextCall n F)} {c1 : CMAES n F R}
      {x : Ended (CMAES n F R) (CMAES n F R × Option (TerminationData n F))} {kind : EvalKind}
      {calls : List (Vec n F × F)},
      History.Of env (obj.silenced pan) o u (c1.silenced pan) → c1.nextU env pan kind = .ok x →
      (asFailure pan x).1.sampler.obj.log = c1.sampler.obj.log ++ calls →
      History.Of env (obj.silenced pan) o (u ++ [{ kind, calls, result := (asFailure pan x).2 }])
        (asFailure pan x).1 := by
    intro u c1 x kind calls hu hx hl
    have hc : c1.sampler.constraints = o.constraints := by
      obtain ⟨gs, i, _⟩ := fresh_inv hu
      exact i.constraints
    have := c85_silenced (env := env) pan c1 kind (by rw [hc]; exact hk)
    rw [hx, Outcome.ok_bind] at this
    obtain ⟨w, c0, hn, he⟩ := hu
    exact ⟨w, c0, hn, .next he this hl⟩
  induction h with
  | refl => exact ⟨[], .nil, w, _, hnew, .refl _⟩
  | @next c1 c2 t kind calls r _ hn hl ih =>
    obtain ⟨u, hf, hu⟩ := ih
    exact ⟨_, List.rel_append hf (.cons (.returned _) .nil), step hu hn hl⟩
  | @caught c1 c2 t kind calls _ hn hl ih =>
    obtain ⟨u, hf, hu⟩ := ih
    exact ⟨_, List.rel_append hf (.cons (.caught rfl) .nil), step hu hn hl⟩
  | @quiet c1 c2 t op r _ hq ha ih =>
    obtain ⟨u, hf, w, c0, hn, he⟩ := ih
    exact ⟨u, hf, w, c0, hn, .quiet he hq (apply_silenced hq ha)⟩

theorem ExecU.trans {c1 c2 c3 : CMAES n F R} {t u : List (Attempt n F)}
    (h : ExecU env pan c1 t c2) (h' : ExecU env pan c2 u c3) : ExecU env pan c1 (t ++ u) c3 := by
  induction h' with
  | refl => simpa using h
  | next _ hn hl ih => rw [← List.append_assoc]; exact .next ih hn hl
  | caught _ hn hl ih => rw [← List.append_assoc]; exact .caught ih hn hl
  | quiet _ hq ha ih => exact .quiet ih hq ha

/-- What `run` does before it returns or panics: `next` calls that reported nothing. -/
theorem runLoopU_exec {fuel : Nat}
    {x : Ended (CMAES n F R) (CMAES n F R × TerminationData n F)}
    (h : c.runLoopU env pan kind fuel = .ok x) :
    ∃ t c1, ExecU env pan c t c1 ∧
      (∀ s ∈ t, ∃ calls, s = .returned { kind, calls, result := none }) ∧
      ((∃ c2, x = .unwound c2 ∧ c1.nextU env pan kind = .ok (.unwound c2)) ∨
        ∃ c2 d, x = .returned (c2, d) ∧ c1.nextU env pan kind = .ok (.returned (c2, some d))) := by
  induction fuel generalizing c with
  | zero => simp [CMAES.runLoopU] at h
  | succ fuel ih =>
    simp only [CMAES.runLoopU, Outcome.bind_eq_ok] at h
    obtain ⟨y, hn, h⟩ := h
    rcases y with ⟨c1, _ | d⟩ | c1
    · obtain ⟨calls, hl, _⟩ := c85_returned hn
      have hl : c1.sampler.obj.log = c.sampler.obj.log ++ calls := congrArg Obj.log hl
      obtain ⟨t, c2, h1, h2, h3⟩ := ih h
      refine ⟨_, c2, (ExecU.next (.refl c) hn hl).trans h1, ?_, h3⟩
      intro s hs
      rcases List.mem_append.mp hs with hs | hs
      · simp only [List.nil_append, List.mem_singleton] at hs
        exact ⟨calls, hs⟩
      · exact h2 s hs
    · simp only [Outcome.ok.injEq] at h
      exact ⟨[], c, .refl c, by simp, .inr ⟨c1, d, h.symm, hn⟩⟩
    · simp only [Outcome.ok.injEq] at h
      exact ⟨[], c, .refl c, by simp, .inl ⟨c1, h.symm, hn⟩⟩

/-- **C85, run.** If a panic is unwound through `run`, the generations that were completed are kept:
some calls of `next` reported nothing, and the next one panicked and changed nothing a user can
see. -/
theorem c85_run (h : c.runU env pan kind = .ok (.unwound c')) :
    ∃ t c1, ExecU env pan c t c1 ∧
      (∀ s ∈ t, ∃ calls, s = .returned { kind, calls, result := none }) ∧
      c1.nextU env pan kind = .ok (.unwound c') ∧ Intact c1 c' := by
  simp only [CMAES.runU, Outcome.bind_eq_ok] at h
  obtain ⟨y, hy, h⟩ := h
  obtain ⟨t, c1, h1, h2, ⟨c2, rfl, h3⟩ | ⟨c2, d, rfl, h3⟩⟩ := runLoopU_exec hy
  · simp only [Outcome.ok.injEq, Ended.unwound.injEq] at h
    subst h
    exact ⟨t, c1, h1, h2, h3, (c85_intact h3).1⟩
  · simp at h

theorem forall₂_mem {α β : Type} {R : α → β → Prop} {l : List α} {m : List β}
    (h : List.Forall₂ R l m) :
    (∀ b ∈ m, ∃ a ∈ l, R a b) ∧ ∀ a ∈ l, ∃ b ∈ m, R a b := by
  induction h with
  | nil => simp
  | cons h _ ih =>
    constructor
    · intro b hb
      rcases List.mem_cons.mp hb with rfl | hb
      · exact ⟨_, by simp, h⟩
      · obtain ⟨a, ha, h⟩ := ih.1 b hb
        exact ⟨a, by simp [ha], h⟩
    · intro a ha
      rcases List.mem_cons.mp ha with rfl | ha
      · exact ⟨_, by simp, h⟩
      · obtain ⟨b, hb, h⟩ := ih.2 a ha
        exact ⟨b, by simp [hb], h⟩

/-- **C85, after a caught panic.** The overall best individual of a history in which panics were
caught is a call that a `next` made which returned without `InvalidFunctionValue`, and no call of
such a `next` is better: what was evaluated in a call that panicked does not count. -/
theorem c85_best {t : List (Attempt n F)} {w : World n F} {c0 : CMAES n F R}
    (h0 : CMAES.new env w obj o = .ok c0) (h : ExecU env pan c0 t c)
    (hk : ∀ k, o.constraints = some k → ∀ x : Vec n F, ∃ b, k (List.ofFn x) = .ok b)
    {x : Individual n F} (hx : c.overallBestIndividual = some x) :
    (∃ s, Attempt.returned s ∈ t ∧ ¬ s.Failed ∧ (x.point, x.value) ∈ s.calls) ∧
    ∀ s, Attempt.returned s ∈ t → ¬ s.Failed → ∀ e ∈ s.calls, ¬ Better o.mode e.2 x.value := by
  obtain ⟨u, hf, hu⟩ := c85_history h0 h hk
  have hx' : (c.silenced pan).overallBestIndividual = some x := hx
  obtain ⟨_, hle, t1, s, t2, rfl, hs, hmem, _⟩ := c01_overall_best hu hx'
  constructor
  · obtain ⟨a, ha, hl⟩ := (forall₂_mem hf).1 s (by simp)
    cases hl with
    | returned => exact ⟨s, ha, hs, hmem⟩
    | caught hd => exact absurd ⟨_, rfl, by simp [hd]⟩ hs
  · intro s' hs' hf' e he
    obtain ⟨b, hb, hl⟩ := (forall₂_mem hf).2 _ hs'
    cases hl with
    | returned =>
      refine hle e ?_
      simp only [completedCalls, List.mem_flatMap, List.mem_filter, decide_eq_true_eq]
      exact ⟨s', ⟨hb, hf'⟩, he⟩

/-- Calls of `next` whose panics are caught. For the examples. -/
def CMAES.nextsU (env : Env n F R) (pan : Panics n F) :
    List EvalKind → CMAES n F R → Outcome (CMAES n F R × List (Attempt n F))
  | [], c => .ok (c, [])
  | k :: ks, c => do
    match ← c.nextU env pan k with
    | .returned (c', r) =>
      let x ← CMAES.nextsU env pan ks c'
      .ok (x.1, .returned { kind := k, result := r
                            calls := c'.sampler.obj.log.drop c.sampler.obj.log.length } :: x.2)
    | .unwound c' =>
      let x ← CMAES.nextsU env pan ks c'
      .ok (x.1, .caught k (c'.sampler.obj.log.drop c.sampler.obj.log.length) :: x.2)

theorem nextsU_exec {ks : List EvalKind} {t : List (Attempt n F)}
    (h : c.nextsU env pan ks = .ok (c', t)) : ExecU env pan c t c' := by
  induction ks generalizing c t with
  | nil =>
    simp only [CMAES.nextsU, Outcome.ok.injEq, Prod.mk.injEq] at h
    obtain ⟨rfl, rfl⟩ := h
    exact .refl c
  | cons k ks ih =>
    simp only [CMAES.nextsU, Outcome.bind_eq_ok] at h
    obtain ⟨y, hn, h⟩ := h
    rcases y with ⟨c1, r⟩ | c1
    · simp only [Outcome.bind_eq_ok, Outcome.ok.injEq, Prod.mk.injEq] at h
      obtain ⟨⟨c2, u⟩, hu, rfl, rfl⟩ := h
      obtain ⟨calls, hl, _⟩ := c85_returned hn
      have hl : c1.sampler.obj.log = c.sampler.obj.log ++ calls := congrArg Obj.log hl
      exact (ExecU.next (.refl c) hn (by rw [hl]; simp)).trans (ih hu)
    · simp only [Outcome.bind_eq_ok, Outcome.ok.injEq, Prod.mk.injEq] at h
      obtain ⟨⟨c2, u⟩, hu, rfl, rfl⟩ := h
      obtain ⟨_, calls, hl, _⟩ := c85_intact hn
      have hl : c1.sampler.obj.log = c.sampler.obj.log ++ calls := congrArg Obj.log hl
      exact (ExecU.caught (.refl c) hn (by rw [hl]; simp)).trans (ih hu)

/-- Whether the call panicked. -/
def Attempt.isCaught : Attempt n F → Bool
  | .returned _ => false
  | .caught _ _ => true

/-- The calls of the objective function. -/
def Attempt.calls : Attempt n F → List (Vec n F × F)
  | .returned s => s.calls
  | .caught _ calls => calls

namespace Witness

/-- The seventh call of the objective function panics. -/
def seventh : Panics 2 F64 := fun log _ => log.length == 6

/-- A constraint that always panics. -/
def panicking : Options 2 F64 := { opts with constraints := some fun _ => .panic .unwrap }

/-- The seventh call panics: the first `next` returns, the second panics in its third call, and
after catching this a third one, in parallel, returns. There is a best individual. -/
theorem seventh_caught : ∃ (c0 c : CMAES 2 F64 Nat) (t : List (Attempt 2 F64)),
    CMAES.new (wenv 2) World.init sphere opts = .ok c0 ∧ ExecU (wenv 2) seventh c0 t c ∧
    t.map (fun a => (a.isCaught, a.calls.length)) = [(false, 4), (true, 3), (false, 4)] ∧
    c.generation = 2 ∧ c.overallBestIndividual.isSome = true := by
  have h : ((CMAES.create (wenv 2) World.init sphere opts).nextsU (wenv 2) seventh
      [.seq, .seq, .par]).check (fun x => decide (
        x.2.map (fun a => (a.isCaught, a.calls.length)) = [(false, 4), (true, 3), (false, 4)] ∧
        x.1.generation = 2 ∧ x.1.overallBestIndividual.isSome = true)) = true := by
    decide +kernel
  obtain ⟨⟨c, t⟩, h1, h2⟩ := Outcome.of_check h
  have h2 := of_decide_eq_true h2
  exact ⟨_, c, t, by simp only [CMAES.new, opts_valid], nextsU_exec h1, h2⟩

end Witness

-- Hypotheses of `c85_history`, `c85_best`, `c85_silenced` and `c85_returned`.
open Witness in
example : ∃ (c : CMAES 2 F64 Nat) (t : List (Attempt 2 F64)) (u : List (NextCall 2 F64)),
    List.Forall₂ Attempt.LooksLike t u ∧ t.map Attempt.isCaught = [false, true, false] ∧
    History.Of (wenv 2) (sphere.silenced seventh) opts u (c.silenced seventh) := by
  obtain ⟨c0, c, t, h0, h, ht, _⟩ := seventh_caught
  obtain ⟨u, hf, hu⟩ := c85_history h0 h (by intro k hk; cases hk)
  refine ⟨c, t, u, hf, ?_, hu⟩
  have := congrArg (List.map Prod.fst) ht
  rw [List.map_map] at this
  exact this

-- Hypothesis of `c85_intact`: a call of the objective that panics ...
open Witness in
example : ∃ c c' : CMAES 2 F64 Nat, c.nextU (wenv 2) (fun log _ => log.length == 2) .par =
    .ok (.unwound c') := by
  have h : ((CMAES.create (wenv 2) World.init sphere opts).nextU (wenv 2)
      (fun log _ => log.length == 2) .par).check (fun x => x.isUnwound) = true := by
    decide +kernel
  obtain ⟨x, h1, h2⟩ := Outcome.of_check h
  rcases x with x | c'
  · cases h2
  · exact ⟨_, c', h1⟩

-- ... and a constraint that panics.
open Witness in
example : ∃ c c' : CMAES 2 F64 Nat, c.nextU (wenv 2) (fun _ _ => false) .seq = .ok (.unwound c') ∧
    c'.sampler.obj.log = [] := by
  have h : ((CMAES.create (wenv 2) World.init sphere panicking).nextU (wenv 2)
      (fun _ _ => false) .seq).check (fun x => match x with
        | .returned _ => false | .unwound c => c.sampler.obj.log.isEmpty) = true := by
    decide +kernel
  obtain ⟨x, h1, h2⟩ := Outcome.of_check h
  rcases x with x | c'
  · cases h2
  · exact ⟨_, c', h1, by simpa using h2⟩

-- Hypothesis of `c85_run`.
open Witness in
example : ∃ c c' : CMAES 2 F64 Nat, c.runU (wenv 2) seventh .seq = .ok (.unwound c') ∧
    c'.generation = 1 := by
  have h : ((CMAES.create (wenv 2) World.init sphere opts).runU (wenv 2) seventh .seq).check
      (fun x => match x with
        | .returned _ => false | .unwound c => decide (c.generation = 1)) = true := by
    decide +kernel
  obtain ⟨x, h1, h2⟩ := Outcome.of_check h
  rcases x with x | c'
  · cases h2
  · exact ⟨_, c', h1, by simpa using h2⟩

end Cmaes
