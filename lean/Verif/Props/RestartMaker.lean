import Verif.Props.RestartUnwind
import Verif.Props.RestartPrint
import Verif.Spec.RestartMaker

/-!
# C110: panics of the closure that makes the objective functions
-/

set_option linter.unusedSectionVars false

namespace Cmaes
variable {n : Nat} {F R : Type} [Flt F] [FltLaws F] {env : Env n F R} {kind : EvalKind}

/-! ### Output is only appended -/

theorem autoPrint_grows {c c' : CMAES n F R} (h : c.autoPrint = .ok c') :
    c.world.out <+: c'.world.out := by
  unfold CMAES.autoPrint at h
  split at h
  · simp only [Outcome.ok.injEq] at h
    rw [← h]
  · simp only [Outcome.bind_eq_ok] at h
    obtain ⟨next, _, h⟩ := h
    simp only [Outcome.ok.injEq] at h
    rw [← h]
    split
    · exact ⟨_, rfl⟩
    · split
      · exact ⟨_, rfl⟩
      · exact List.prefix_rfl

theorem nextInternal_grows {tree : SplitTree} {inds : List (EvaluatedPoint n F)}
    {c c' : CMAES n F R} {d : Option (TerminationData n F)}
    (h : c.nextInternal env tree inds = .ok (c', d)) : c.world.out <+: c'.world.out := by
  unfold CMAES.nextInternal at h
  simp only [Outcome.bind_eq_ok] at h
  obtain ⟨⟨state, success⟩, _, h⟩ := h
  cases success with
  | false =>
    simp only [Bool.false_eq_true, if_false, Outcome.ok.injEq, Prod.mk.injEq] at h
    rw [← h.1]
  | true =>
    simp only [if_true, Outcome.bind_eq_ok] at h
    obtain ⟨c1, ha, c2, hb, hd⟩ := h
    obtain ⟨o1, _⟩ := out_autoPlot ha
    obtain ⟨_, _, _, o3, _⟩ := checkTermination_eq_ok hd
    have := autoPrint_grows hb
    rw [o1] at this
    rw [o3]
    exact this

theorem nextU_grows {p : Panics n F} {c : CMAES n F R}
    {x : Ended (CMAES n F R) (CMAES n F R × Option (TerminationData n F))}
    (h : c.nextU env p kind = .ok x) :
    c.world.out <+: (match x with | .unwound c' => c' | .returned (c', _) => c').world.out := by
  unfold CMAES.nextU at h
  simp only [Outcome.bind_eq_ok] at h
  obtain ⟨y, _, h⟩ := h
  rcases y with ⟨res, smp⟩ | smp
  · cases res with
    | none =>
      simp only [Outcome.ok.injEq] at h
      subst h
      exact List.prefix_rfl
    | some inds =>
      simp only [Outcome.bind_eq_ok] at h
      obtain ⟨hist, _, ⟨c', d⟩, hn, h⟩ := h
      simp only [Outcome.ok.injEq] at h
      subst h
      have g := nextInternal_grows hn
      simp only at g ⊢
      exact g
  · simp only [Outcome.ok.injEq] at h
    subst h
    exact List.prefix_rfl

theorem runLoopU_grows {p : Panics n F} {fuel : Nat} {c : CMAES n F R}
    {x : Ended (CMAES n F R) (CMAES n F R × TerminationData n F)}
    (h : c.runLoopU env p kind fuel = .ok x) :
    c.world.out <+: (match x with | .unwound c' => c' | .returned (c', _) => c').world.out := by
  induction fuel generalizing c with
  | zero => cases h
  | succ fuel ih =>
    simp only [CMAES.runLoopU, Outcome.bind_eq_ok] at h
    obtain ⟨y, hn, h⟩ := h
    have hg := nextU_grows hn
    rcases y with ⟨c1, _ | d⟩ | c1
    · exact hg.trans (ih h)
    · simp only [Outcome.ok.injEq] at h
      subst h
      exact hg
    · simp only [Outcome.ok.injEq] at h
      subst h
      exact hg

theorem runU_grows {p : Panics n F} {c : CMAES n F R}
    {x : Ended (CMAES n F R) (CMAES n F R × TerminationData n F)}
    (h : c.runU env p kind = .ok x) :
    c.world.out <+: (match x with | .unwound c' => c' | .returned (c', _) => c').world.out := by
  simp only [CMAES.runU, Outcome.bind_eq_ok] at h
  obtain ⟨y, hy, h⟩ := h
  have hg := runLoopU_grows hy
  rcases y with ⟨c1, d⟩ | c1
  · simp only [Outcome.ok.injEq] at h
    subst h
    exact hg.trans (runInternal_seen c1 d).2
  · simp only [Outcome.ok.injEq] at h
    subst h
    exact hg

/-! ### The state of a restarter that makes its objective functions -/

/-- Before a run: there is no stored objective function, and the runs so far are recorded and
printed. -/
structure Making (get : List (List (Vec n F × F)) → Obj n F) (s : RestartState n F R) : Prop where
  stored : s.stored = none
  source : s.source = .factory get
  runs : s.runs = s.records.length
  printed : s.restarter.options.enablePrinting = true → EndsAfterRun s.records.length s.world.out

variable {get : List (List (Vec n F × F)) → Obj n F} {pan : RestartPanics n F}
  {mk : MakerPanics n F} {s s' : RestartState n F R}

theorem Making.congr (h : Making get s) (h1 : s'.stored = s.stored) (h2 : s'.source = s.source)
    (h3 : s'.runs = s.runs) (h4 : s'.records = s.records) (h5 : s'.world.out = s.world.out)
    (h6 : s'.restarter.options = s.restarter.options) : Making get s' := by
  obtain ⟨a, b, c, d⟩ := h
  exact ⟨h1.trans a, h2.trans b, by rw [h3, h4, c], by rw [h4, h5, h6]; exact d⟩

theorem precheck_keeps (s : RestartState n F R) :
    (s.precheck env).2.stored = s.stored ∧ (s.precheck env).2.source = s.source := by
  unfold RestartState.precheck
  simp only
  repeat' split
  all_goals exact ⟨rfl, rfl⟩

theorem postcheck_keeps (s : RestartState n F R) (record : RunRecord n F R)
    (control : RestartControl) :
    (s.postcheck record control).2.stored = s.stored ∧
    (s.postcheck record control).2.source = s.source := by
  unfold RestartState.postcheck
  split
  · exact ⟨rfl, rfl⟩
  · cases record.final.overallBestIndividual with
    | none =>
      simp only
      split
      · exact ⟨rfl, rfl⟩
      · cases control <;> exact ⟨rfl, rfl⟩
    | some b =>
      simp only
      split
      · exact ⟨rfl, rfl⟩
      · cases control <;> exact ⟨rfl, rfl⟩

theorem Making.oneRunU (h : Making get s)
    {x : Ended (RestartLeft n F) (RestartState n F R × RunRecord n F R × RestartControl)}
    (hx : s.oneRunU env pan kind = .ok x) :
    (∃ mean, generateInitialMean (n := n) env.restartRng s.restarter.options.searchStart
      s.restarter.options.searchEnd s.restarter.rng = .ok mean) ∧
    match x with
    | .unwound l => (∃ last, l.calls = s.calls ++ [last]) ∧ s.world.out <+: l.output
    | .returned (s1, _, _) => Making get s1 ∧ (∃ last, s1.calls = s.calls ++ [last]) ∧
      s.world.out <+: s1.world.out ∧ s1.restarter.options = s.restarter.options := by
  unfold RestartState.oneRunU at hx
  simp only [Outcome.bind_eq_ok] at hx
  obtain ⟨⟨mean, rng⟩, hm, ⟨obj, s1⟩, ht, ⟨o, rng'⟩, hcf, hx⟩ := hx
  refine ⟨⟨_, hm⟩, ?_⟩
  obtain ⟨a, b, c, d⟩ := h
  obtain ⟨re, ti, ev, ru, wo, src, sc, sto, recs⟩ := s
  simp only at a b c d
  subst a b c
  have ht : Outcome.ok _ = Outcome.ok _ := ht
  simp only [Outcome.ok.injEq, Prod.mk.injEq] at ht
  obtain ⟨rfl, rfl⟩ := ht
  simp only at hx
  cases hnew : CMAES.new env wo (get (recs.map fun r => r.final.sampler.obj.log)) o with
  | error e => rw [hnew] at hx; cases hx
  | ok c =>
    rw [hnew] at hx
    simp only [Outcome.bind_eq_ok] at hx
    have hb : wo.out <+: c.world.out := by
      rw [c47_build hnew]
      exact ⟨_, rfl⟩
    generalize hc1 : (if re.options.enablePrinting = true then
      c.printRunInfo (recs.length + 1) else c) = c1 at hx
    have hb1 : wo.out <+: c1.world.out := by
      rw [← hc1]
      split
      · exact hb.trans ⟨_, rfl⟩
      · exact hb
    obtain ⟨y, hy, hx⟩ := hx
    have hg := hb1.trans (runU_grows hy)
    rcases y with ⟨c2, dt⟩ | c2
    · simp only [Outcome.bind_eq_ok] at hx
      obtain ⟨⟨strategy, control⟩, hf, hx⟩ := hx
      simp only [Outcome.ok.injEq] at hx
      subst hx
      simp only at hg ⊢
      refine ⟨⟨?_, ?_, ?_, ?_⟩, ⟨c2.sampler.obj.log, ?_⟩, ?_, ?_⟩
      · unfold RestartState.print; split <;> rfl
      · unfold RestartState.print; split <;> rfl
      · unfold RestartState.print; split <;> simp
      · intro he
        have he : re.options.enablePrinting = true := by
          unfold RestartState.print at he
          split at he <;> exact he
        unfold RestartState.print
        simp only [he, if_true, List.length_append, List.length_singleton]
        exact ⟨_, _, _, _, rfl⟩
      · unfold RestartState.print RestartState.calls
        split <;> simp [CMAES.intoObjectiveFunction]
      · unfold RestartState.print
        simp only
        split
        · exact hg.trans ⟨_, rfl⟩
        · exact hg
      · unfold RestartState.print; split <;> rfl
    · simp only [Outcome.ok.injEq] at hx
      subst hx
      exact ⟨⟨_, rfl⟩, hg⟩

theorem Making.oneRunM (h : Making get s) :
    s.oneRunM env pan mk kind = s.oneRunU env pan kind ∨
    mk s.calls = true ∧
      s.oneRunM env pan mk kind = .ok (.unwound { output := s.world.out, calls := s.calls }) := by
  unfold RestartState.oneRunM
  cases hm : generateInitialMean (n := n) env.restartRng s.restarter.options.searchStart
      s.restarter.options.searchEnd s.restarter.rng with
  | panic p =>
    left
    unfold RestartState.oneRunU
    simp only [hm]
    rfl
  | diverge =>
    left
    unfold RestartState.oneRunU
    simp only [hm]
    rfl
  | ok m =>
    simp only [hm, Outcome.ok_bind, h.stored, Option.isNone_none, Bool.true_and]
    split
    · rename_i hk
      exact .inr ⟨hk, rfl⟩
    · exact .inl rfl

theorem Making.oneRunM_of_ok (h : Making get s)
    (hm : ∃ mean, generateInitialMean (n := n) env.restartRng s.restarter.options.searchStart
      s.restarter.options.searchEnd s.restarter.rng = .ok mean) :
    s.oneRunM env pan mk kind = if mk s.calls = true then
      .ok (.unwound { output := s.world.out, calls := s.calls }) else s.oneRunU env pan kind := by
  obtain ⟨m, hm⟩ := hm
  unfold RestartState.oneRunM
  simp only [hm, Outcome.ok_bind, h.stored, Option.isNone_none, Bool.true_and]
  rfl

/-! ### The loop -/

/-- The calls the objective functions have seen when the loop has ended. -/
def loopCalls : Ended (RestartLeft n F) (RestartTerminationReason × RestartState n F R) →
    List (List (Vec n F × F))
  | .returned (_, s) => s.calls
  | .unwound left => left.calls

/-- The output when the loop has ended. -/
def loopOutput : Ended (RestartLeft n F) (RestartTerminationReason × RestartState n F R) →
    List (PrintEvent n F)
  | .returned (_, s) => s.world.out
  | .unwound left => left.output

theorem calls_congr {a b : RestartState n F R} (h : a.records = b.records) : a.calls = b.calls := by
  unfold RestartState.calls
  rw [h]

theorem calls_length (a : RestartState n F R) : a.calls.length = a.records.length := by
  unfold RestartState.calls
  rw [List.length_map]

theorem Making.precheck {a1 : Option RestartTerminationReason} {a2 : RestartState n F R}
    (h : Making get s) (hp : s.precheck env = (a1, a2)) :
    Making get a2 ∧ a2.calls = s.calls ∧ a2.world.out = s.world.out ∧
      a2.restarter.options = s.restarter.options := by
  obtain ⟨e1, e2, e3, e4⟩ := precheck_out hp
  have e : a2 = (s.precheck env).2 := by rw [hp]
  have h' := precheck_keeps (env := env) s
  rw [← e] at h'
  exact ⟨h.congr h'.1 h'.2 e2 e3 e4 (by rw [e1]), calls_congr e3, e4, by rw [e1]⟩

theorem Making.postcheck {rec : RunRecord n F R} {ctl : RestartControl}
    {a1 : Option RestartTerminationReason} {a2 : RestartState n F R}
    (h : Making get s) (hp : s.postcheck rec ctl = (a1, a2)) :
    Making get a2 ∧ a2.calls = s.calls ∧ a2.world.out = s.world.out ∧
      a2.restarter.options = s.restarter.options := by
  obtain ⟨e1, e2, e3, e4⟩ := postcheck_out hp
  have e : a2 = (s.postcheck rec ctl).2 := by rw [hp]
  have h' := postcheck_keeps s rec ctl
  rw [← e] at h'
  exact ⟨h.congr h'.1 h'.2 e2 e3 e4 e1, calls_congr e3, e4, e1⟩

theorem take_of_prefix {α : Type} {a b : List α} (h : a <+: b) : b.take a.length = a :=
  (List.prefix_iff_eq_take.mp h).symm

theorem Making.loop (fuel : Nat) (h : Making get s)
    {x : Ended (RestartLeft n F) (RestartTerminationReason × RestartState n F R)}
    (hx : s.loopU env pan kind false fuel = .ok x) :
    s.calls <+: loopCalls x ∧ s.world.out <+: loopOutput x ∧
    ((∀ k, s.calls.length ≤ k → k < (loopCalls x).length → mk ((loopCalls x).take k) = false) →
      s.loopM env pan mk kind fuel = .ok x) ∧
    ∀ k, s.calls.length ≤ k → k < (loopCalls x).length → mk ((loopCalls x).take k) = true →
      (∀ j, s.calls.length ≤ j → j < k → mk ((loopCalls x).take j) = false) →
      ∃ out, s.loopM env pan mk kind fuel =
          .ok (.unwound { output := out, calls := (loopCalls x).take k }) ∧
        out <+: loopOutput x ∧
        (s.restarter.options.enablePrinting = true → EndsAfterRun k out) := by
  induction fuel generalizing s with
  | zero => cases hx
  | succ fuel ih =>
    unfold RestartState.loopU at hx
    unfold RestartState.loopM
    rcases hp : s.precheck env with ⟨a1, a2⟩
    obtain ⟨h2, e1, e2, e3⟩ := h.precheck hp
    rw [hp] at hx
    cases a1 with
    | some r =>
      simp only [Outcome.ok.injEq] at hx
      subst hx
      have e1' : loopCalls (.returned (r, a2)) = s.calls := e1
      have e2' : loopOutput (.returned (r, a2)) = s.world.out := e2
      rw [e1', e2']
      refine ⟨List.prefix_rfl, List.prefix_rfl, fun _ => rfl, fun k h1 h2 => ?_⟩
      omega
    | none =>
      simp only [Outcome.bind_eq_ok] at hx
      obtain ⟨y, hy, hx⟩ := hx
      obtain ⟨hm, hy'⟩ := h2.oneRunU hy
      have hM := h2.oneRunM_of_ok (pan := pan) (mk := mk) (kind := kind) hm
      rw [hy, e1, e2] at hM
      have hstop : ∀ (L : List (List (Vec n F × F))) (O : List (PrintEvent n F)), s.calls <+: L →
          s.world.out <+: O → mk (L.take s.calls.length) = true →
          ∃ out, (a2.oneRunM env pan mk kind >>= fun y => match y with
            | .unwound l => .ok (.unwound l)
            | .returned (s, record, control) =>
              match s.postcheck record control with
              | (some r, s) => .ok (.returned (r, s))
              | (none, s) => RestartState.loopM env pan mk kind fuel (s.store false record)) =
            Outcome.ok (.unwound { output := out, calls := L.take s.calls.length }) ∧ out <+: O ∧
            (s.restarter.options.enablePrinting = true → EndsAfterRun s.calls.length out) := by
        intro L O hL hO hk
        rw [take_of_prefix hL] at hk ⊢
        rw [hM, if_pos hk]
        refine ⟨_, rfl, hO, ?_⟩
        rw [calls_length]
        exact h.printed
      have hgo : ∀ (L : List (List (Vec n F × F))), s.calls <+: L →
          mk (L.take s.calls.length) = false → a2.oneRunM env pan mk kind = .ok y := by
        intro L hL hk
        rw [take_of_prefix hL] at hk
        rw [hM, if_neg (by rw [hk]; exact Bool.false_ne_true)]
      rcases y with ⟨s1, rec, ctl⟩ | l
      · obtain ⟨hmk, ⟨last, hl⟩, hout, hop⟩ := hy'
        simp only at hx
        rcases hq : s1.postcheck rec ctl with ⟨b1, b2⟩
        obtain ⟨h3, g1, g2, g3⟩ := hmk.postcheck hq
        rw [hq] at hx
        rw [e1] at hl
        rw [e2] at hout
        have hlen : s1.calls.length = s.calls.length + 1 := by rw [hl]; simp
        cases b1 with
        | some r =>
          simp only [Outcome.ok.injEq] at hx
          subst hx
          have g1' : loopCalls (.returned (r, b2)) = s.calls ++ [last] := g1.trans hl
          have g2' : loopOutput (.returned (r, b2)) = s1.world.out := g2
          rw [g1', g2']
          have hpre : s.calls <+: s.calls ++ [last] := ⟨_, rfl⟩
          refine ⟨hpre, hout, fun hk => ?_, fun k k1 k2 k3 k4 => ?_⟩
          · simp only
            rw [hgo _ hpre (hk _ (le_refl _) (by simp)), Outcome.ok_bind]
            simp only [hq]
          · have : k = s.calls.length := by
              simp only [List.length_append, List.length_singleton] at k2
              omega
            subst this
            exact hstop _ _ hpre hout k3
        | none =>
          simp only at hx
          obtain ⟨i1, i2, i3, i4⟩ := ih (s := b2) h3 hx
          rw [g1] at i1 i3 i4
          rw [g2] at i2
          have hpre : s.calls <+: loopCalls x := by
            refine List.IsPrefix.trans ?_ i1
            rw [hl]
            exact ⟨_, rfl⟩
          have hlt : s.calls.length < (loopCalls x).length := by
            have := i1.length_le
            omega
          refine ⟨hpre, hout.trans i2, fun hk => ?_, fun k k1 k2 k3 k4 => ?_⟩
          · simp only
            rw [hgo _ hpre (hk _ (le_refl _) hlt), Outcome.ok_bind]
            simp only [hq]
            exact i3 fun k k1 k2 => hk k (by omega) k2
          · rcases Nat.eq_or_lt_of_le k1 with rfl | k1
            · exact hstop _ _ hpre (hout.trans i2) k3
            · simp only
              rw [hgo _ hpre (k4 _ (le_refl _) k1), Outcome.ok_bind]
              simp only [hq]
              obtain ⟨out, j1, j2, j3⟩ := i4 k (by omega) k2 k3 fun j j1 j2 => k4 j (by omega) j2
              exact ⟨out, j1, j2, by rw [g3, hop, e3] at j3; exact j3⟩
      · obtain ⟨⟨last, hl⟩, hout⟩ := hy'
        simp only [Outcome.ok.injEq] at hx
        subst hx
        rw [e1] at hl
        rw [e2] at hout
        have hl' : loopCalls (R := R) (.unwound l) = s.calls ++ [last] := hl
        rw [hl']
        have hpre : s.calls <+: s.calls ++ [last] := ⟨_, rfl⟩
        refine ⟨hpre, hout, fun hk => ?_, fun k k1 k2 k3 k4 => ?_⟩
        · simp only
          rw [hgo _ hpre (hk _ (le_refl _) (by simp))]
          rfl
        · have : k = s.calls.length := by
            simp only [List.length_append, List.length_singleton] at k2
            omega
          subst this
          exact hstop _ _ hpre hout k3

theorem Making.loop_other (fuel : Nat) (h : Making get s) :
    s.loopM env pan mk kind fuel = s.loopU env pan kind false fuel ∨
    ∃ left, s.loopM env pan mk kind fuel = .ok (.unwound left) ∧ s.calls <+: left.calls ∧
      mk left.calls = true ∧
      (∀ j, s.calls.length ≤ j → j < left.calls.length → mk (left.calls.take j) = false) ∧
      (s.restarter.options.enablePrinting = true →
        EndsAfterRun left.calls.length left.output) := by
  induction fuel generalizing s with
  | zero => exact .inl rfl
  | succ fuel ih =>
    unfold RestartState.loopU RestartState.loopM
    rcases hp : s.precheck env with ⟨a1, a2⟩
    obtain ⟨h2, e1, e2, e3⟩ := h.precheck hp
    cases a1 with
    | some r => exact .inl rfl
    | none =>
      simp only
      by_cases hk : mk s.calls = true
      · rcases h2.oneRunM (env := env) (pan := pan) (mk := mk) (kind := kind) with hM | ⟨_, hM⟩
        · cases hy : a2.oneRunU env pan kind with
          | panic p => left; rw [hM, hy]; rfl
          | diverge => left; rw [hM, hy]; rfl
          | ok y =>
            have := h2.oneRunM_of_ok (pan := pan) (mk := mk) (kind := kind) (h2.oneRunU hy).1
            rw [e1, e2, if_pos hk] at this
            right
            rw [this]
            refine ⟨_, rfl, List.prefix_rfl, hk, fun j j1 j2 => ?_, ?_⟩
            · simp only at j2
              omega
            · simp only
              rw [calls_length]
              exact h.printed
        · right
          rw [hM, e1, e2]
          refine ⟨_, rfl, List.prefix_rfl, hk, fun j j1 j2 => ?_, ?_⟩
          · simp only at j2
            omega
          · simp only
            rw [calls_length]
            exact h.printed
      · have hM : a2.oneRunM env pan mk kind = a2.oneRunU env pan kind := by
          rcases h2.oneRunM (env := env) (pan := pan) (mk := mk) (kind := kind) with hM | ⟨h, _⟩
          · exact hM
          · rw [e1] at h
            exact absurd h hk
        rw [hM]
        cases hy : a2.oneRunU env pan kind with
        | panic p => exact .inl rfl
        | diverge => exact .inl rfl
        | ok y =>
          rcases y with ⟨s1, rec, ctl⟩ | l
          · obtain ⟨hmk, ⟨last, hl⟩, hout, hop⟩ := (h2.oneRunU hy).2
            simp only [Outcome.ok_bind]
            rcases hq : s1.postcheck rec ctl with ⟨b1, b2⟩
            obtain ⟨h3, g1, g2, g3⟩ := hmk.postcheck hq
            cases b1 with
            | some r => exact .inl rfl
            | none =>
              rw [e1] at hl
              have hst : b2.store false rec = b2 := rfl
              simp only [hst]
              rcases ih (s := b2) h3 with hM | ⟨l, i1, i2, i3, i4, i5⟩
              · exact .inl hM
              · rw [g1, hl] at i2 i4
                have hpre : s.calls <+: l.calls := List.IsPrefix.trans ⟨_, rfl⟩ i2
                refine .inr ⟨l, i1, hpre, i3, fun j j1 j2 => ?_, ?_⟩
                · rcases Nat.eq_or_lt_of_le j1 with rfl | j1
                  · rw [take_of_prefix hpre]
                    exact Bool.eq_false_iff.mpr hk
                  · exact i4 j (by simp; omega) j2
                · rw [g3, hop, e3] at i5
                  exact i5
          · exact .inl rfl

theorem making_start (r : Restarter n F R) : Making get (r.start env (.factory get)) := by
  refine ⟨rfl, rfl, rfl, fun he => ?_⟩
  have he : r.options.enablePrinting = true := he
  unfold Restarter.start
  simp only [he, if_true]
  exact ⟨_, _, _, _, _, _, rfl⟩

/-! ### The theorems -/

/-- **C110.** Take a restarter that makes a new objective function for each run, by a closure that
never panics, and let it end (by returning, or by a panic of an objective function). If the closure
instead panics at some of its calls, then: if none of these calls is reached nothing changes; and
if the first one is that for run `k + 1`, the restarter panics then: the objective functions have
seen the first `k` runs and nothing else, and what is printed is the beginning of what is printed
otherwise, up to the results of run `k` if the restarter prints. -/
theorem c110_maker {r : Restarter n F R}
    {x : Ended (RestartLeft n F) (RestartResults n F × RestartState n F R)}
    (h : r.runU env pan kind get = .ok x) :
    ((∀ k < (seenCalls x).length, mk ((seenCalls x).take k) = false) →
      r.runM env pan mk kind get = .ok x) ∧
    ∀ k, FirstMakerPanic mk (seenCalls x) k →
      ∃ out, r.runM env pan mk kind get =
          .ok (.unwound { output := out, calls := (seenCalls x).take k }) ∧
        out <+: seenOutput x ∧ (r.options.enablePrinting = true → EndsAfterRun k out) := by
  simp only [Restarter.runU, Restarter.runInternalU, Outcome.bind_eq_ok] at h
  obtain ⟨y, hy, h⟩ := h
  obtain ⟨-, -, i3, i4⟩ := (making_start r).loop (mk := mk) _ hy
  have h0 : (r.start env (.factory get)).calls.length = 0 := rfl
  rw [h0] at i3 i4
  have hc : seenCalls x = loopCalls y ∧ loopOutput y <+: seenOutput x ∧
      ∀ l, y = .unwound l → x = .unwound l := by
    rcases y with ⟨reason, s⟩ | l
    · simp only [Outcome.ok.injEq] at h
      subst h
      refine ⟨?_, ?_, fun _ e => (nomatch e)⟩
      · show RestartState.calls _ = RestartState.calls _
        exact calls_congr (print_records _ _)
      · show s.world.out <+: (RestartState.print _ _).world.out
        unfold RestartState.print
        split
        · exact ⟨_, rfl⟩
        · exact List.prefix_rfl
    · simp only [Outcome.ok.injEq] at h
      subst h
      exact ⟨rfl, List.prefix_rfl, fun l e => by cases e; rfl⟩
  obtain ⟨c1, c2, -⟩ := hc
  rw [c1]
  constructor
  · intro hk
    unfold Restarter.runM
    rw [i3 fun k _ k2 => hk k k2, Outcome.ok_bind]
    exact h
  · rintro k ⟨k1, k2, k3⟩
    obtain ⟨out, j1, j2, j3⟩ := i4 k (Nat.zero_le _) k1 k2 fun j _ j2 => k3 j j2
    refine ⟨out, ?_, j2.trans c2, j3⟩
    unfold Restarter.runM
    rw [j1]
    rfl

/-- **C110, any other end.** Also if the restarter with a closure that does not panic would not end
this way (the runs go on for ever, or the code itself panics): with a closure that panics the same
happens, or the closure panics, at the first of its calls that does. -/
theorem c110_other (r : Restarter n F R) :
    r.runM env pan mk kind get = r.runU env pan kind get ∨
    ∃ left, r.runM env pan mk kind get = .ok (.unwound left) ∧ mk left.calls = true ∧
      (∀ j < left.calls.length, mk (left.calls.take j) = false) ∧
      (r.options.enablePrinting = true → EndsAfterRun left.calls.length left.output) := by
  rcases (making_start (env := env) (get := get) r).loop_other (pan := pan) (mk := mk) (kind := kind)
      env.restartFuel with hM | ⟨l, h1, _, h3, h4, h5⟩
  · left
    unfold Restarter.runM Restarter.runU Restarter.runInternalU
    rw [hM]
    rfl
  · refine .inr ⟨l, ?_, h3, fun j hj => h4 j (Nat.zero_le _) hj, h5⟩
    unfold Restarter.runM
    rw [h1]
    rfl

/-! ### Example -/

-- Hypotheses of `c110_maker`: the closure panics when asked for the objective function of the third
-- of three runs.
open Witness in
example : ∃ r x, Restarter.new (wenv 2) (restartOpts (localStrategy 3)) = .ok r ∧
    r.runU (wenv 2) (fun _ _ _ => false) .seq (fun _ => sphere) = .ok x ∧
    FirstMakerPanic (fun logs => logs.length == 2) (seenCalls x) 2 ∧
    ∃ out, r.runM (wenv 2) (fun _ _ _ => false) (fun logs => logs.length == 2) .seq
      (fun _ => sphere) = .ok (.unwound { output := out, calls := (seenCalls x).take 2 }) := by
  have h : (match Restarter.new (wenv 2) (restartOpts (localStrategy 3)) with
      | .error _ => false
      | .ok r => (r.runU (wenv 2) (fun _ _ _ => false) .seq (fun _ => sphere)).check
        fun x => decide ((seenCalls x).length = 3)) = true := by
    decide +kernel
  split at h
  · cases h
  · rename_i r hr
    obtain ⟨x, h1, h2⟩ := Outcome.of_check h
    have h2 : (seenCalls x).length = 3 := of_decide_eq_true h2
    have hf : FirstMakerPanic (fun logs => logs.length == 2) (seenCalls x) 2 := by
      refine ⟨by omega, by simp [h2], fun j hj => ?_⟩
      simp only [List.length_take, h2, beq_eq_false_iff_ne]
      omega
    obtain ⟨out, h3, _⟩ := (c110_maker h1).2 2 hf
    exact ⟨r, x, hr, h1, hf, out, h3⟩

end Cmaes
