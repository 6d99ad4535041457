import Verif.Props.Restart
import Verif.Float.XRLemmas
import Verif.Float.Bin64
import Mathlib.Data.Prod.Lex
import Mathlib.Order.WellFounded

/-!
# The restart strategies (C52-C55)
-/

namespace Cmaes
variable {n : Nat} {F R : Type} [Flt F] [FltLaws F]
variable {env : Env n F R} {kind : EvalKind} {reuse : Bool} {src : ObjSource n F}
  {o : RestartOptions n F} {r : Restarter n F R} {res : RestartResults n F}
  {s : RestartState n F R}

set_option linter.unusedSectionVars false

/-! ### Local -/

theorem local_new {l : Local F} {m : Nat} {f : Option F} (hl : Local.new m f = .ok l) :
    l = ⟨0, f.getD (Flt.ofRat (1 / 2)), m⟩ ∧
      ∀ x, f = some x → isInitialStepSizeValid x = true := by
  unfold Local.new at hl
  cases f with
  | none => exact ⟨by simpa using hl.symm, by simp⟩
  | some f =>
    by_cases hv : isInitialStepSizeValid f = true
    · simp only [hv, Bool.not_true, Bool.false_eq_true, ↓reduceIte, Except.ok.injEq] at hl
      exact ⟨hl.symm, by simpa using hv⟩
    · simp [hv] at hl

theorem heads_local {l : Local F} (hl : l.runs = 0) (hr : r.strategy = .local l)
    (h : Heads env kind reuse (r.start env src) s) :
    s.restarter.strategy = .local { l with runs := s.records.length } ∧
      (s.records = [] ∨ s.records.length < l.maxRuns) := by
  refine h.ind (P := fun s => s.restarter.strategy = .local { l with runs := s.records.length } ∧
      (s.records = [] ∨ s.records.length < l.maxRuns)) ?_ ?_
  · refine ⟨?_, .inl rfl⟩
    show r.strategy = .local { l with runs := 0 }
    rw [hr, ← hl]
  · rintro s s' rec _ ⟨h1, _⟩ p
    have hf := p.finish
    rw [h1] at hf
    simp only [Strategy.finish, Outcome.ok.injEq, Prod.mk.injEq] at hf
    rw [p.records]
    simp only [List.length_append, List.length_cons, List.length_nil, Nat.zero_add]
    refine ⟨hf.1.symm, .inr ?_⟩
    by_contra hc
    simp [not_lt.mp hc] at hf

/-- **C52, `Local`.** `Local::new(m, _)` performs at most `m` runs, and if the reason is `MaxRuns` it
performed exactly `m`. -/
theorem c52_local {l : Local F} {m : Nat} {f : Option F} (hl : Local.new m f = .ok l)
    (h0 : Restarter.new env o = .ok r) (hs : o.strategy = .local l)
    (h : r.runInternal env kind src reuse = .ok (res, s)) :
    res.runs ≤ m ∧ (res.reason = .maxRuns → res.runs = m) := by
  obtain ⟨_, hst, _⟩ := restarter_new h0
  have hl0 : l.runs = 0 ∧ l.maxRuns = m := by
    rw [(local_new hl).1]
    exact ⟨rfl, rfl⟩
  rw [(c50_totals h).1]
  obtain ⟨_, _, _, s1, hh, hc⟩ := runInternal_ok h
  obtain ⟨b1, b2⟩ := heads_local hl0.1 (hst.trans hs) hh
  rw [hl0.2] at b2
  rcases hc with ⟨e1, _, _, _, _, hc⟩ | ⟨s2, rec, control, rs, e1, _, _, _, _, hc⟩
  · rw [e1]
    refine ⟨by rcases b2 with b2 | b2 <;> [simp [b2]; omega], fun hr => ?_⟩
    rcases hc with ⟨_, hz⟩ | ⟨hr', _⟩ | ⟨hr', _⟩
    · rw [b1] at hz
      simp only [Strategy.hasZeroMaxRuns, hl0.2, beq_iff_eq] at hz
      rcases b2 with b2 | b2
      · rw [b2, hz]; rfl
      · omega
    · rw [hr'] at hr; simp at hr
    · rw [hr'] at hr; simp at hr
  · rw [e1, rs.records]
    have hz := rs.zero
    rw [b1] at hz
    simp only [Strategy.hasZeroMaxRuns, hl0.2, beq_eq_false_iff_ne] at hz
    have hle : s1.records.length + 1 ≤ m := by
      rcases b2 with b2 | b2
      · rw [b2]; simp; omega
      · omega
    refine ⟨by simpa using hle, fun hr => ?_⟩
    rcases hc with ⟨hr', _⟩ | ⟨_, _, ⟨hr', _⟩ | ⟨hr', _, hct⟩⟩
    · rw [hr'] at hr; simp at hr
    · rw [hr'] at hr; simp at hr
    · have hf := rs.finish
      rw [b1] at hf
      simp only [Strategy.finish, Outcome.ok.injEq, Prod.mk.injEq, hl0.2] at hf
      have : m ≤ s1.records.length + 1 := by
        by_contra hcon
        rw [hct, if_neg hcon] at hf
        simp at hf
      simp only [List.length_append, List.length_cons, List.length_nil]
      omega

/-- `Local` runs all use the default population size and the documented step size, the search range
size times the factor times 0.01. -/
theorem c53_local {l : Local F} {m : Nat} {f : Option F} (hl : Local.new m f = .ok l)
    (h0 : Restarter.new env o = .ok r) (hs : o.strategy = .local l)
    (h : r.runInternal env kind src reuse = .ok (res, s)) {x : RunRecord n F R}
    (hx : x ∈ s.records) :
    x.options.populationSize = o.defaultOptions.populationSize ∧
    x.options.initialStepSize =
      o.rangeSize * f.getD (Flt.ofRat (1 / 2)) * Flt.ofRat (1 / 100) := by
  obtain ⟨ho, hst, _⟩ := restarter_new h0
  have hl0 : l.runs = 0 ∧ l.initialStepSizeFactor = f.getD (Flt.ofRat (1 / 2)) := by
    rw [(local_new hl).1]
    exact ⟨rfl, rfl⟩
  obtain ⟨sk, sk', control, hh, rs⟩ := did_run_mem h hx
  obtain ⟨mean, rng1, seed, rng2, _, _, hc⟩ := rs.config
  rw [(heads_local hl0.1 (hst.trans hs) hh).1, hh.basic.1, ho] at hc
  simp only [Strategy.configure, Outcome.ok.injEq, Prod.mk.injEq] at hc
  rw [← hc.1]
  refine ⟨rfl, ?_⟩
  show o.rangeSize * l.initialStepSizeFactor * _ = _
  rw [hl0.2]

/-! ### IPOP -/

theorem usizeMul_ok {a b c : Nat} (h : usizeMul a b = .ok c) : c = a * b ∧ a * b < 2 ^ 64 := by
  unfold usizeMul at h
  split at h
  · simp at h
  · rename_i hlt
    injection h with h
    exact ⟨h.symm, not_le.mp hlt⟩

theorem heads_ipop {factor : Nat} (hr : r.strategy = .ipop ⟨0, 1, factor⟩)
    (h : Heads env kind reuse (r.start env src) s) :
    s.restarter.strategy = .ipop ⟨s.records.length, factor ^ s.records.length, factor⟩ ∧
      s.records.length < 10 := by
  refine h.ind (P := fun s => s.restarter.strategy =
      .ipop ⟨s.records.length, factor ^ s.records.length, factor⟩ ∧ s.records.length < 10) ?_ ?_
  · refine ⟨?_, by simp [Restarter.start]⟩
    show r.strategy = .ipop ⟨0, factor ^ 0, factor⟩
    rw [hr, pow_zero]
  · rintro s s' rec _ ⟨h1, _⟩ p
    have hf := p.finish
    rw [h1] at hf
    simp only [Strategy.finish, Outcome.bind_eq_ok, Outcome.ok.injEq, Prod.mk.injEq] at hf
    obtain ⟨m, hm, hf, hf2⟩ := hf
    rw [p.records]
    simp only [List.length_append, List.length_cons, List.length_nil, Nat.zero_add]
    rw [(usizeMul_ok hm).1] at hf
    refine ⟨by rw [← hf, pow_succ], ?_⟩
    by_contra hc
    simp [ipopMaxRuns, not_lt.mp hc] at hf2

theorem ipop_new {factor : Nat} {l : IPOP} (hl : IPOP.new factor = .ok l) :
    l = ⟨0, 1, factor⟩ ∧ factor ≠ 0 := by
  unfold IPOP.new at hl
  split at hl
  · simp at hl
  · injection hl with hl
    exact ⟨hl.symm, by assumption⟩

/-- **C52, `IPOP`.** At most ten runs, and exactly ten if the reason is `MaxRuns`. -/
theorem c52_ipop {factor : Nat} {l : IPOP} (hl : IPOP.new factor = .ok l)
    (h0 : Restarter.new env o = .ok r) (hs : o.strategy = .ipop l)
    (h : r.runInternal env kind src reuse = .ok (res, s)) :
    res.runs ≤ 10 ∧ (res.reason = .maxRuns → res.runs = 10) := by
  obtain ⟨_, hst, _⟩ := restarter_new h0
  obtain ⟨rfl, _⟩ := ipop_new hl
  rw [(c50_totals h).1]
  obtain ⟨_, _, _, s1, hh, hc⟩ := runInternal_ok h
  obtain ⟨b1, b2⟩ := heads_ipop (hst.trans hs) hh
  rcases hc with ⟨e1, _, _, _, _, hc⟩ | ⟨s2, rec, control, rs, e1, _, _, _, _, hc⟩
  · rw [e1]
    refine ⟨b2.le, fun hr => ?_⟩
    rcases hc with ⟨_, hz⟩ | ⟨hr', _⟩ | ⟨hr', _⟩
    · rw [b1] at hz; simp [Strategy.hasZeroMaxRuns] at hz
    · rw [hr'] at hr; simp at hr
    · rw [hr'] at hr; simp at hr
  · rw [e1, rs.records]
    refine ⟨by simp only [List.length_append, List.length_cons, List.length_nil]; omega, fun hr => ?_⟩
    rcases hc with ⟨hr', _⟩ | ⟨_, _, ⟨hr', _⟩ | ⟨hr', _, hct⟩⟩
    · rw [hr'] at hr; simp at hr
    · rw [hr'] at hr; simp at hr
    · have hf := rs.finish
      rw [b1] at hf
      simp only [Strategy.finish, Outcome.bind_eq_ok, Outcome.ok.injEq, Prod.mk.injEq,
        ipopMaxRuns] at hf
      obtain ⟨_, _, _, hf⟩ := hf
      have : 10 ≤ s1.records.length + 1 := by
        by_contra hcon
        simp only [hcon, ↓reduceIte] at hf
        rw [hct] at hf
        simp at hf
      simp only [List.length_append, List.length_cons, List.length_nil]
      omega

/-- **C53, `IPOP`.** Run number `k`, from zero, uses `default * factor^k` points and half the search
range as step size; no run wraps around. -/
theorem c53_ipop {factor : Nat} {l : IPOP} (hl : IPOP.new factor = .ok l)
    (h0 : Restarter.new env o = .ok r) (hs : o.strategy = .ipop l)
    (h : r.runInternal env kind src reuse = .ok (res, s)) {k : Nat} {x : RunRecord n F R}
    (hx : s.records[k]? = some x) :
    x.options.populationSize = o.defaultOptions.populationSize * factor ^ k ∧
    x.options.populationSize < 2 ^ 64 ∧
    x.options.initialStepSize = o.rangeSize / 2 := by
  obtain ⟨ho, hst, _⟩ := restarter_new h0
  obtain ⟨rfl, _⟩ := ipop_new hl
  obtain ⟨hk, hx⟩ := List.getElem?_eq_some_iff.mp hx
  have hsplit : s.records = s.records.take k ++ x :: s.records.drop (k + 1) := by
    rw [← hx, List.getElem_cons_drop, List.take_append_drop]
  obtain ⟨sk, sk', control, hh, hrec, rs⟩ := did_run h hsplit
  have hlen : sk.records.length = k := by rw [hrec, List.length_take]; omega
  obtain ⟨mean, rng1, seed, rng2, _, _, hc⟩ := rs.config
  rw [(heads_ipop (hst.trans hs) hh).1, hh.basic.1, ho, hlen] at hc
  simp only [Strategy.configure, Outcome.bind_eq_ok, Outcome.ok.injEq, Prod.mk.injEq] at hc
  obtain ⟨m, hm, hc, _⟩ := hc
  obtain ⟨hm1, hm2⟩ := usizeMul_ok hm
  rw [← hc]
  refine ⟨hm1, ?_, rfl⟩
  show m < _
  rw [hm1]
  exact hm2

/-! ### BIPOP -/

section lists

variable {ls : List (Regime × RunRecord n F R)} {x : RunRecord n F R} {g g' : Regime}

theorem runsOf_snoc_same : runsOf g (ls ++ [(g, x)]) = runsOf g ls + 1 := by
  simp [runsOf, List.filter_append]

theorem runsOf_snoc_other (h : g' ≠ g) : runsOf g (ls ++ [(g', x)]) = runsOf g ls := by
  simp [runsOf, List.filter_append, h]

theorem spent_snoc_same : spent g (ls ++ [(g, x)]) = spent g ls + x.evals := by
  simp [spent, totalEvals, List.filter_append]

theorem spent_snoc_other (h : g' ≠ g) : spent g (ls ++ [(g', x)]) = spent g ls := by
  simp [spent, List.filter_append, h]

theorem lastIpop_snoc_same : lastIpop (ls ++ [(.ipop, x)]) = some x := by
  simp [lastIpop, List.filter_append]

theorem lastIpop_snoc_small : lastIpop (ls ++ [(.small, x)]) = lastIpop ls := by
  simp [lastIpop, List.filter_append]

end lists

/-- The strategy's state agrees with the labelled runs. -/
structure BipopState (b : BIPOP F) (lrf : F) (k : Nat)
    (ls : List (Regime × RunRecord n F R)) : Prop where
  runs : b.ipopRuns = runsOf .ipop ls
  ipopEvals : b.ipopFunctionEvals = spent .ipop ls
  lrEvals : b.lrFunctionEvals = spent .small ls
  factor : b.ipopIncreaseFactor = k
  mult : b.ipopCurrentMultiplier = k ^ runsOf .ipop ls
  lrFactor : b.lrInitialStepSizeFactor = lrf
  first : ls ≠ [] → runsOf .ipop ls ≠ 0
  last : runsOf .ipop ls ≠ 0 → ∃ x, lastIpop ls = some x ∧ b.lastIpopFunctionEvalsUsed = x.evals ∧
    b.lastIpopMultiplier = k ^ (runsOf .ipop ls - 1)

theorem BipopState.useLr {b : BIPOP F} {lrFactor : F} {factor : Nat}
    {ls : List (Regime × RunRecord n F R)} (i : BipopState b lrFactor factor ls) :
    b.useLr = true ↔ ls ≠ [] ∧ spent .small ls < spent .ipop ls := by
  unfold BIPOP.useLr
  rw [Bool.and_eq_true, decide_eq_true_iff, bne_iff_ne, i.runs, i.lrEvals, i.ipopEvals]
  refine and_congr_left fun _ => ⟨?_, i.first⟩
  rintro h rfl
  exact h rfl

theorem bipop_new {lr : Option F} {factor : Option Nat} {b : BIPOP F}
    (hb : BIPOP.new lr factor = .ok b) :
    BipopState (R := R) (n := n) b (lr.getD (Flt.ofRat (2 / 10))) (factor.getD 2) [] ∧
      factor.getD 2 ≠ 0 := by
  have hb : factor ≠ some 0 ∧ b = { ipopRuns := 0, ipopFunctionEvals := 0, ipopCurrentMultiplier := 1, ipopIncreaseFactor := factor.getD 2, lastIpopFunctionEvalsUsed := 0, lastIpopMultiplier := 1, lrInitialStepSizeFactor := lr.getD (Flt.ofRat (2 / 10)), lrFunctionEvals := 0 } := by
    unfold BIPOP.new at hb
    have hb : (if factor = some 0 then Except.error .populationSize
        else .ok { ipopRuns := 0, ipopFunctionEvals := 0, ipopCurrentMultiplier := 1, ipopIncreaseFactor := factor.getD 2, lastIpopFunctionEvalsUsed := 0, lastIpopMultiplier := 1, lrInitialStepSizeFactor := lr.getD (Flt.ofRat (2 / 10)), lrFunctionEvals := 0 }) =
        (.ok b : Except InvalidRestartStrategyOptionsError (BIPOP F)) := by
      cases lr with
      | none => simpa using hb
      | some f =>
        by_cases hv : isInitialStepSizeValid f = true
        · simpa [hv] using hb
        · simp [hv] at hb
    by_cases h2 : factor = some 0
    · rw [if_pos h2] at hb; simp at hb
    rw [if_neg h2] at hb
    injection hb with hb
    exact ⟨h2, hb.symm⟩
  obtain ⟨hf, rfl⟩ := hb
  refine ⟨⟨rfl, rfl, rfl, rfl, rfl, rfl, by simp, by simp [runsOf]⟩, ?_⟩
  cases factor with
  | none => simp
  | some k => simpa using hf

/-- One run of BIPOP keeps the agreement. -/
theorem bipop_step {b : BIPOP F} {lrFactor : F} {factor : Nat}
    {ls : List (Regime × RunRecord n F R)} (i : BipopState b lrFactor factor ls)
    (hls : BipopRuns env o lrFactor factor ls) {mean : Vec n F} {seed : Nat} {rng rng' : R}
    {rec : RunRecord n F R} {st : Strategy F} {control : RestartControl}
    (hc : (Strategy.bipop b).configure env.restartRng (o.runOptions mean seed) o.rangeSize rng =
      .ok (rec.options, rng'))
    (hf : (Strategy.bipop b).finish rec.evals = .ok (st, control)) :
    ∃ b' g, st = .bipop b' ∧ BipopState b' lrFactor factor (ls ++ [(g, rec)]) ∧
      BipopRuns env o lrFactor factor (ls ++ [(g, rec)]) ∧
      (g = .ipop → (control = .maxRunsReached ↔ 10 ≤ runsOf .ipop (ls ++ [(g, rec)]))) ∧
      (g = .small → control = .continue) := by
  have hap : ∀ g, ((g = .small ↔ ls ≠ [] ∧ spent .small ls < spent .ipop ls) ∧
      BipopRun env o.rangeSize lrFactor o.defaultOptions.populationSize o.maxFunctionEvalsPerRun
        factor ls g rec.options) → BipopRuns env o lrFactor factor (ls ++ [(g, rec)]) := by
    intro g hg pre g' x post e
    rcases snoc_split e with ⟨_, rfl, e2⟩ | ⟨post', _, e2⟩
    · injection e2 with e2 e3
      subst e2 e3
      exact hg
    · exact hls pre g' x post' e2
  have hu := i.useLr
  unfold Strategy.configure at hc
  unfold Strategy.finish at hf
  simp only at hc hf
  by_cases hlr : b.useLr = true
  · have hl := hu.mp hlr
    rw [if_pos hlr] at hc hf
    simp only [Outcome.ok.injEq, Prod.mk.injEq] at hc hf
    obtain ⟨x, hx1, hx2, hx3⟩ := i.last (i.first hl.1)
    refine ⟨_, .small, hf.1.symm, ?_, hap _ ⟨by simpa using hl, ?_⟩, by simp, fun _ => hf.2.symm⟩
    · refine ⟨?_, ?_, ?_, i.factor, ?_, i.lrFactor, fun _ => ?_, fun _ => ?_⟩
      · rw [runsOf_snoc_other (by simp)]; exact i.runs
      · rw [spent_snoc_other (by simp)]; exact i.ipopEvals
      · rw [spent_snoc_same]
        show _ + _ = _
        rw [i.lrEvals]
      · rw [runsOf_snoc_other (by simp)]; exact i.mult
      · rw [runsOf_snoc_other (by simp)]; exact i.first hl.1
      · rw [runsOf_snoc_other (by simp), lastIpop_snoc_small]
        exact ⟨x, hx1, hx2, hx3⟩
    · refine ⟨x, (env.restartRng.unit rng).1,
        (env.restartRng.unit (env.restartRng.unit rng).2).1, hx1, ⟨_, rfl⟩, ⟨_, rfl⟩, ?_, ?_, ?_⟩
      · rw [← hc.1]
        show _ * b.lrInitialStepSizeFactor * _ = _
        rw [i.lrFactor]
      · rw [← hc.1, ← hx3]
        rfl
      · rw [← hc.1, ← hx2]
        rfl
  · rw [if_neg hlr] at hc hf
    simp only [Outcome.bind_eq_ok, Outcome.ok.injEq, Prod.mk.injEq] at hc hf
    obtain ⟨m, hm, hc, _⟩ := hc
    obtain ⟨m', hm', hf, hf2⟩ := hf
    have hnl : ¬ (ls ≠ [] ∧ spent .small ls < spent .ipop ls) := fun h => hlr (hu.mpr h)
    refine ⟨_, .ipop, hf.symm, ?_, hap _ ⟨by simpa using hnl, ?_⟩, fun _ => ?_, by simp⟩
    · refine ⟨?_, ?_, ?_, i.factor, ?_, i.lrFactor, fun _ => ?_, fun _ => ?_⟩
      · rw [runsOf_snoc_same, ← i.runs]
      · rw [spent_snoc_same, ← i.ipopEvals]
      · rw [spent_snoc_other (by simp)]; exact i.lrEvals
      · rw [runsOf_snoc_same, pow_succ, ← i.mult]
        show m' = _
        rw [(usizeMul_ok hm').1, i.factor]
      · rw [runsOf_snoc_same]; omega
      · rw [runsOf_snoc_same, lastIpop_snoc_same, Nat.add_sub_cancel, ← i.mult]
        exact ⟨rec, rfl, rfl, rfl⟩
    · refine ⟨?_, ?_, ?_⟩
      · rw [← hc, ← i.mult]
        exact (usizeMul_ok hm).1
      · rw [← hc]; rfl
      · rw [← hc]; rfl
    · rw [runsOf_snoc_same, ← i.runs, ← hf2]
      by_cases hle : bipopMaxIpopRuns ≤ b.ipopRuns + 1
      · simp only [hle, ↓reduceIte, true_iff]
        exact hle
      · simp only [hle, ↓reduceIte, reduceCtorEq, false_iff]
        exact hle

theorem heads_bipop {lr : Option F} {factor : Option Nat} {b : BIPOP F}
    (hb : BIPOP.new lr factor = .ok b) (hr : r.strategy = .bipop b) (ho : r.options = o)
    (h : Heads env kind reuse (r.start env src) s) :
    ∃ b' ls, s.restarter.strategy = .bipop b' ∧ ls.map Prod.snd = s.records ∧
      BipopState b' (lr.getD (Flt.ofRat (2 / 10))) (factor.getD 2) ls ∧
      BipopRuns env o (lr.getD (Flt.ofRat (2 / 10))) (factor.getD 2) ls ∧
      runsOf .ipop ls < 10 := by
  refine h.ind (P := fun s => ∃ b' ls, s.restarter.strategy = .bipop b' ∧
      ls.map Prod.snd = s.records ∧
      BipopState b' (lr.getD (Flt.ofRat (2 / 10))) (factor.getD 2) ls ∧
      BipopRuns env o (lr.getD (Flt.ofRat (2 / 10))) (factor.getD 2) ls ∧
      runsOf .ipop ls < 10) ?_ ?_
  · exact ⟨b, [], hr, rfl, (bipop_new hb).1, by rintro ⟨⟩ _ _ _ h <;> simp at h, by simp [runsOf]⟩
  · rintro s s' rec hh ⟨b', ls, h1, h2, h3, h4, h5⟩ p
    obtain ⟨mean, rng1, seed, rng2, _, _, hc⟩ := p.config
    have hf := p.finish
    rw [h1] at hf hc
    rw [hh.basic.1, ho] at hc
    obtain ⟨b2, g, e1, e2, e3, e4, e5⟩ := bipop_step h3 h4 hc hf
    refine ⟨b2, _, e1, by rw [List.map_append, h2, p.records]; rfl, e2, e3, ?_⟩
    cases g with
    | ipop =>
      have := e4 rfl
      simp only [reduceCtorEq, false_iff, not_le] at this
      exact this
    | small => rw [runsOf_snoc_other (by simp)]; exact h5

/-- **C52, C53, C54, C55, `BIPOP`.** The runs can be labelled so that: a run is local if and only if
it is not the first and the local runs so far used fewer evaluations than the others; every run has
the documented configuration for its kind (both in `BipopRuns`); at most ten runs are not local, and exactly
ten if the reason is `MaxRuns`. -/
theorem c54_bipop {lr : Option F} {factor : Option Nat} {b : BIPOP F}
    (hb : BIPOP.new lr factor = .ok b) (h0 : Restarter.new env o = .ok r)
    (hs : o.strategy = .bipop b) (h : r.runInternal env kind src reuse = .ok (res, s)) :
    ∃ ls : List (Regime × RunRecord n F R), ls.map Prod.snd = s.records ∧
      BipopRuns env o (lr.getD (Flt.ofRat (2 / 10))) (factor.getD 2) ls ∧
      runsOf .ipop ls ≤ 10 ∧ (res.reason = .maxRuns → runsOf .ipop ls = 10) := by
  obtain ⟨ho, hst, _⟩ := restarter_new h0
  obtain ⟨_, _, _, s1, hh, hc⟩ := runInternal_ok h
  obtain ⟨b', ls, h1, h2, h3, h4, h5⟩ := heads_bipop hb (hst.trans hs) ho hh
  rcases hc with ⟨e1, _, _, _, _, hc⟩ | ⟨s2, rec, control, rs, e1, _, _, _, _, hc⟩
  · refine ⟨ls, by rw [e1, h2], h4, h5.le, fun hr => ?_⟩
    rcases hc with ⟨_, hz⟩ | ⟨hr', _⟩ | ⟨hr', _⟩
    · rw [h1] at hz; simp [Strategy.hasZeroMaxRuns] at hz
    · rw [hr'] at hr; simp at hr
    · rw [hr'] at hr; simp at hr
  · obtain ⟨mean, rng1, seed, rng2, _, _, hcf⟩ := rs.config
    have hf := rs.finish
    rw [h1] at hf hcf
    rw [hh.basic.1, ho] at hcf
    obtain ⟨b2, g, f1, f2, f3, f4, f5⟩ := bipop_step h3 h4 hcf hf
    have hle : runsOf .ipop (ls ++ [(g, rec)]) ≤ 10 := by
      cases g with
      | ipop => rw [runsOf_snoc_same]; omega
      | small => rw [runsOf_snoc_other (by simp)]; exact h5.le
    refine ⟨_, by rw [List.map_append, h2, e1, rs.records]; rfl, f3, hle, fun hr => ?_⟩
    rcases hc with ⟨hr', _⟩ | ⟨_, _, ⟨hr', _⟩ | ⟨hr', _, hct⟩⟩
    · rw [hr'] at hr; simp at hr
    · rw [hr'] at hr; simp at hr
    · cases g with
      | ipop => exact le_antisymm hle ((f4 rfl).mp hct)
      | small => rw [f5 rfl] at hct; simp at hct

/-- **C54, balance.** At any time, also in the middle of a local run, the evaluations used by local
runs exceed those used by the other runs by less than the evaluations of a single local run, the
last one. -/
theorem c54_balance {lrFactor : F} {factor : Nat} {ls : List (Regime × RunRecord n F R)}
    (h : BipopRuns env o lrFactor factor ls) {pre post : List (Regime × RunRecord n F R)}
    (hs : ls = pre ++ post) :
    spent .small pre = 0 ∨ ∃ p x q, pre = p ++ (.small, x) :: q ∧ runsOf .small q = 0 ∧
      spent .small pre < spent .ipop pre + x.evals := by
  subst hs
  induction pre using List.reverseRecOn generalizing post with
  | nil => exact .inl rfl
  | append_singleton pre y ih =>
    obtain ⟨g, x⟩ := y
    cases g with
    | ipop =>
      rw [List.append_assoc] at h
      rcases ih h with h1 | ⟨p, z, q, h1, h2, h3⟩
      · left
        rw [spent_snoc_other (by simp)]
        exact h1
      · right
        refine ⟨p, z, q ++ [(.ipop, x)], by rw [h1]; simp, ?_, ?_⟩
        · rw [runsOf_snoc_other (by simp)]; exact h2
        · rw [spent_snoc_other (by simp), spent_snoc_same]
          omega
    | small =>
      right
      refine ⟨pre, x, [], rfl, rfl, ?_⟩
      have := (h pre .small x post (by simp)).1.mp rfl
      rw [spent_snoc_same, spent_snoc_other (by simp)]
      omega

/-! ### C55 -/

/-- The most recent run with a large population, found in the list. -/
theorem lastIpop_split {ls : List (Regime × RunRecord n F R)} {x : RunRecord n F R}
    (h : lastIpop ls = some x) :
    ∃ p q, ls = p ++ (.ipop, x) :: q ∧ runsOf .ipop q = 0 ∧ runsOf .ipop p + 1 = runsOf .ipop ls := by
  induction ls using List.reverseRecOn with
  | nil => simp [lastIpop] at h
  | append_singleton ls y ih =>
    obtain ⟨g, z⟩ := y
    cases g with
    | ipop =>
      rw [lastIpop_snoc_same] at h
      injection h with h
      subst h
      exact ⟨ls, [], rfl, rfl, by rw [runsOf_snoc_same]⟩
    | small =>
      rw [lastIpop_snoc_small] at h
      obtain ⟨p, q, h1, h2, h3⟩ := ih h
      refine ⟨p, q ++ [(.small, z)], by rw [h1]; simp, ?_, ?_⟩
      · rw [runsOf_snoc_other (by simp)]; exact h2
      · rw [runsOf_snoc_other (by simp)]; exact h3

/-- The configuration of a local run of BIPOP in terms of the last run with a large population. -/
theorem bipop_small {lrFactor : F} {factor : Nat} {ls : List (Regime × RunRecord n F R)}
    (h : BipopRuns env o lrFactor factor ls) {pre post : List (Regime × RunRecord n F R)}
    {x : RunRecord n F R} (hs : ls = pre ++ (.small, x) :: post) :
    ∃ last u k, lastIpop pre = some last ∧ env.CanDraw u ∧
      last.options.populationSize = o.defaultOptions.populationSize * factor ^ k ∧
      x.options.populationSize = Flt.toUsize (Flt.floor (Flt.ofNat o.defaultOptions.populationSize *
        Flt.fmax (Flt.powf (Flt.ofNat (factor ^ k) / 2) (Flt.powi u 2)) 1)) ∧
      x.options.maxFunctionEvals = o.maxFunctionEvalsPerRun.map fun m => min m (last.evals / 2) := by
  obtain ⟨last, u1, u2, h1, _, h2, _, h3, h4⟩ := (h pre .small x post hs).2
  obtain ⟨p, q, e1, _, e3⟩ := lastIpop_split h1
  have hl := (h p .ipop last (q ++ (.small, x) :: post) (by rw [hs, e1]; simp)).2.1
  have hk : runsOf .ipop pre - 1 = runsOf .ipop p := by omega
  rw [hk] at h3
  exact ⟨last, u2, _, h1, h2, hl, h3, h4⟩

/-- **C55, evaluations.** If the restarter has a limit on the evaluations per run, a local run stops
in the first generation in which its evaluations reach half of those of the last run with a large
population: it uses less than this half (or one, if the half is zero) plus its population size.
Missing from the full claim: the case without a limit, for which it is false
(`c55_no_limit`). -/
theorem c55_evals_partial {lrFactor : F} {factor m : Nat} {ls : List (Regime × RunRecord n F R)}
    (h : BipopRuns env o lrFactor factor ls) {pre post : List (Regime × RunRecord n F R)}
    {x : RunRecord n F R} (hs : ls = pre ++ (.small, x) :: post) (hx : x.Real env kind)
    (hm : o.maxFunctionEvalsPerRun = some m) :
    ∃ last, lastIpop pre = some last ∧
      x.evals < max (last.evals / 2) 1 + x.options.populationSize := by
  obtain ⟨last, u, k, h1, _, _, _, h4⟩ := bipop_small h hs
  refine ⟨last, h1, ?_⟩
  rw [hm] at h4
  obtain ⟨w, c0, c1, h0, hc, hr⟩ := hx
  have ht : History.Of env x.obj x.options [] c1 := by
    refine ⟨w, c0, h0, ?_⟩
    rcases hc with rfl | ⟨k, rfl⟩
    · exact .refl _
    · exact .quiet (op := .printRunInfo k) (.refl c0) trivial rfl
  have h19 := c19_run ht h4 hr
  have h6 : c1.functionEvals = 0 := by rw [(c06_generations ht).1]; simp
  rw [h6] at h19
  show x.final.functionEvals < _
  refine lt_of_lt_of_le h19 (Nat.add_le_add_right ?_ _)
  have : min m (last.evals / 2) ≤ last.evals / 2 := min_le_right _ _
  exact max_le_max this (by simp)

/-- **C55, population, exact arithmetic.** In exact real arithmetic, whatever numbers in `[0, 1)`
are drawn, a local run uses at least the default population size and at most the larger of the
default and half of the population of the last run with a large population. -/
theorem c55_population_exact {R : Type} {env : Env n XR R} {o : RestartOptions n XR}
    {lrFactor : XR} {factor : Nat} {ls : List (Regime × RunRecord n XR R)} (hf : factor ≠ 0)
    (h : BipopRuns env o lrFactor factor ls) {pre post : List (Regime × RunRecord n XR R)}
    {x : RunRecord n XR R} (hs : ls = pre ++ (.small, x) :: post)
    (hu : ∀ u, env.CanDraw u → ∃ a : ℝ, u = .fin a ∧ 0 ≤ a ∧ a < 1)
    (hd : o.defaultOptions.populationSize < 2 ^ 64) :
    ∃ last, lastIpop pre = some last ∧
      o.defaultOptions.populationSize ≤ x.options.populationSize ∧
      x.options.populationSize ≤
        max o.defaultOptions.populationSize (last.options.populationSize / 2) := by
  obtain ⟨last, u, k, h1, h2, h3, h4, _⟩ := bipop_small h hs
  refine ⟨last, h1, ?_⟩
  obtain ⟨a, rfl, ha0, ha1⟩ := hu u h2
  rw [h3, h4]
  generalize o.defaultOptions.populationSize = d at hd
  have hm : 1 ≤ factor ^ k := Nat.one_le_pow _ _ (Nat.pos_of_ne_zero hf)
  generalize factor ^ k = m at hm
  have hm' : (0 : ℝ) < (m : ℝ) / 2 := by positivity
  have hp : (Flt.powf (Flt.ofNat m / 2) (Flt.powi (.fin a) 2) : XR) =
      .fin (((m : ℝ) / 2) ^ (a ^ 2 : ℝ)) := by
    rw [XR.powi_fin, XR.ofNat_eq, XR.lit_eq, XR.div_fin (by norm_num)]
    show (if 0 < _ then _ else _ : XR) = _
    rw [if_pos (by simpa using hm')]
  rw [hp, XR.one_eq, XR.fmax_fin, XR.ofNat_eq, XR.mul_fin]
  set y : ℝ := max (((m : ℝ) / 2) ^ (a ^ 2 : ℝ)) 1 with hy
  have hy1 : 1 ≤ y := le_max_right _ _
  have hy2 : y ≤ max ((m : ℝ) / 2) 1 := by
    apply max_le _ (le_max_right _ _)
    by_cases h2 : (m : ℝ) / 2 ≤ 1
    · exact le_trans (Real.rpow_le_one hm'.le h2 (by positivity)) (le_max_right _ _)
    · push Not at h2
      refine le_trans ?_ (le_max_left _ _)
      calc ((m : ℝ) / 2) ^ (a ^ 2 : ℝ) ≤ ((m : ℝ) / 2) ^ (1 : ℝ) :=
            Real.rpow_le_rpow_of_exponent_le h2.le (by nlinarith)
        _ = _ := Real.rpow_one _
  have he : (Flt.toUsize (Flt.floor (.fin ((d : ℝ) * y) : XR)) : Nat) =
      min (2 ^ 64 - 1) (⌊(d : ℝ) * y⌋).toNat := by
    show min (2 ^ 64 - 1) (⌊((⌊(d : ℝ) * y⌋ : ℤ) : ℝ)⌋).toNat = _
    rw [Int.floor_intCast]
  rw [he]
  have hd0 : (0 : ℝ) ≤ d := Nat.cast_nonneg d
  constructor
  · rw [le_min_iff]
    refine ⟨by omega, ?_⟩
    have : (d : ℤ) ≤ ⌊(d : ℝ) * y⌋ := by
      rw [Int.le_floor]
      push_cast
      nlinarith
    omega
  · refine le_trans (min_le_right _ _) ?_
    have hle : (d : ℝ) * y ≤ max (d : ℝ) ((d * m : ℝ) / 2) := by
      calc (d : ℝ) * y ≤ d * max ((m : ℝ) / 2) 1 := mul_le_mul_of_nonneg_left hy2 hd0
        _ = max (d * ((m : ℝ) / 2)) (d * 1) := mul_max_of_nonneg _ _ hd0
        _ = _ := by rw [max_comm, mul_one, mul_div_assoc]
    rw [le_max_iff] at hle
    rcases hle with hle | hle
    · refine le_trans ?_ (le_max_left _ _)
      have : ⌊(d : ℝ) * y⌋ ≤ (d : ℤ) := by
        have := Int.floor_le_floor hle
        rwa [Int.floor_natCast] at this
      omega
    · refine le_trans ?_ (le_max_right _ _)
      have h5 : ⌊(d : ℝ) * y⌋ ≤ ((d * m / 2 : ℕ) : ℤ) := by
        have h6 : ⌊(d : ℝ) * y⌋ < ((d * m / 2 : ℕ) : ℤ) + 1 := by
          rw [Int.floor_lt]
          refine lt_of_le_of_lt hle ?_
          have h7 : d * m < 2 * (d * m / 2 + 1) := by omega
          generalize d * m / 2 = q at h7
          have h8 : (d : ℝ) * m < 2 * (q + 1) := by exact_mod_cast h7
          push_cast
          linarith
        omega
      omega

/-- Rounding half a small integer is exact. -/
theorem rnd0_half {k : ℕ} (h : k ≤ 2 ^ 53) : rnd0 ((k : ℚ) / 2) = (k : ℚ) / 2 := by
  have := rnd0_exact (m := k) (k := -1) (by rw [abs_of_nonneg (by positivity)]; exact_mod_cast h)
    (by norm_num)
  simpa [zpow_neg, div_eq_mul_inv] using this

theorem Bin64.rnd_of_abs_le {q : ℚ} (h : |rnd0 q| ≤ 2 ^ 53) :
    ∃ c : Bin64, Bin64.rnd q = .fin c ∧ c.1 = rnd0 q := by
  have h' : |rnd0 q| < 2 ^ 1024 :=
    lt_of_le_of_lt h (pow_lt_pow_right₀ (by norm_num) (by norm_num))
  exact ⟨⟨rnd0 q, rnd0_idem q, h'⟩, by rw [Bin64.rnd, dif_pos h'], rfl⟩

/-- The population size computed for a local run, for a multiplier between 1 and `max(m/2, 1)`. -/
theorem f64_population [Libm F64] {d m : ℕ} {a : Bin64} (hd : 1 ≤ d) (hm : 1 ≤ m)
    (hdm : d * m ≤ 2 ^ 53) (h1 : 1 ≤ a.1) (h2 : a.1 ≤ max ((m : ℚ) / 2) 1) :
    d ≤ (Flt.toUsize (Flt.floor (Flt.ofNat d * (.fin a : F64))) : ℕ) ∧
    (Flt.toUsize (Flt.floor (Flt.ofNat d * (.fin a : F64))) : ℕ) ≤ max d (d * m / 2) := by
  have hd53 : d ≤ 2 ^ 53 := le_trans (Nat.le_mul_of_pos_right d hm) hdm
  obtain ⟨c, hc, hc1⟩ := Bin64.rnd_of_abs_le (q := (d : ℚ))
    (by rw [rnd0_nat hd53, abs_of_nonneg (by positivity)]; exact_mod_cast hd53)
  rw [rnd0_nat hd53] at hc1
  have hd0 : (0 : ℚ) ≤ d := by positivity
  have lo : (d : ℚ) ≤ rnd0 ((d : ℚ) * a.1) := by
    have := rnd0_mono (show (d : ℚ) ≤ d * a.1 by nlinarith)
    rwa [rnd0_nat hd53] at this
  have hi : rnd0 ((d : ℚ) * a.1) ≤ max (d : ℚ) (((d * m : ℕ) : ℚ) / 2) := by
    have : (d : ℚ) * a.1 ≤ max (d : ℚ) (((d * m : ℕ) : ℚ) / 2) := by
      calc (d : ℚ) * a.1 ≤ d * max ((m : ℚ) / 2) 1 := mul_le_mul_of_nonneg_left h2 hd0
        _ = max (d * ((m : ℚ) / 2)) (d * 1) := mul_max_of_nonneg _ _ hd0
        _ = _ := by rw [max_comm, mul_one, Nat.cast_mul, mul_div_assoc]
    rw [le_max_iff] at this ⊢
    rcases this with h | h
    · left
      have := rnd0_mono h
      rwa [rnd0_nat hd53] at this
    · right
      have := rnd0_mono h
      rwa [rnd0_half hdm] at this
  have hup : max (d : ℚ) (((d * m : ℕ) : ℚ) / 2) ≤ 2 ^ 53 := by
    have e : ((d * m : ℕ) : ℚ) ≤ 2 ^ 53 := by exact_mod_cast hdm
    apply max_le
    · exact_mod_cast hd53
    · have : (0:ℚ) ≤ ((d * m : ℕ) : ℚ) := by positivity
      linarith
  obtain ⟨e, he, he1⟩ := Bin64.rnd_of_abs_le (q := (d : ℚ) * a.1)
    (by rw [abs_of_nonneg (by linarith)]; linarith)
  have hz : rnd0 ((⌊e.1⌋ : ℤ) : ℚ) = ((⌊e.1⌋ : ℤ) : ℚ) := by
    have h0 : (0 : ℤ) ≤ ⌊e.1⌋ := Int.floor_nonneg.mpr (by rw [he1]; linarith)
    have hle : ⌊e.1⌋.toNat ≤ 2 ^ 53 := by
      have : ⌊e.1⌋ ≤ 2 ^ 53 := by
        have := Int.floor_le e.1
        have h3 : (⌊e.1⌋ : ℚ) ≤ ((2 ^ 53 : ℤ) : ℚ) := by push_cast; rw [he1] at this ⊢; linarith
        exact_mod_cast h3
      omega
    have := rnd0_nat hle
    have h4 : ((⌊e.1⌋.toNat : ℕ) : ℚ) = ((⌊e.1⌋ : ℤ) : ℚ) := by
      exact_mod_cast congrArg (Int.cast : ℤ → ℚ) (Int.toNat_of_nonneg h0)
    rwa [h4] at this
  obtain ⟨g, hg, hg1⟩ := Bin64.rnd_of_abs_le (q := ((⌊e.1⌋ : ℤ) : ℚ)) (by
    rw [hz, abs_of_nonneg]
    · have := Int.floor_le e.1
      rw [he1] at this ⊢; linarith
    · have h0 : (0 : ℤ) ≤ ⌊e.1⌋ := Int.floor_nonneg.mpr (by rw [he1]; linarith)
      exact_mod_cast h0)
  have key : (Flt.toUsize (Flt.floor (Flt.ofNat d * (.fin a : F64))) : ℕ) =
      min (2 ^ 64 - 1) (⌊rnd0 ((d : ℚ) * a.1)⌋).toNat := by
    have e1 : (Flt.ofNat d : F64) = .fin c := by
      show Bin64.rnd (((d : ℚ) : ℚ)) = _
      simpa using hc
    have e2 : (Flt.ofNat d * (.fin a : F64)) = .fin e := by
      rw [e1]
      show Bin64.rnd (c.1 * a.1) = _
      rw [hc1, he]
    rw [e2]
    show Ext.toUsize (Bin64.rnd ((⌊e.1⌋ : ℤ) : ℚ)) = _
    rw [hg]
    show min (2 ^ 64 - 1) (⌊g.1⌋).toNat = _
    rw [hg1, hz, Int.floor_intCast, he1]
  rw [key]
  constructor
  · rw [le_min_iff]
    refine ⟨by omega, ?_⟩
    have : (d : ℤ) ≤ ⌊rnd0 ((d : ℚ) * a.1)⌋ := by
      rw [Int.le_floor]; exact_mod_cast lo
    omega
  · refine le_trans (min_le_right _ _) ?_
    rw [le_max_iff] at hi
    rcases hi with hi | hi
    · refine le_trans ?_ (le_max_left _ _)
      have := Int.floor_le_floor hi
      rw [Int.floor_natCast] at this
      omega
    · refine le_trans ?_ (le_max_right _ _)
      have h6 : ⌊rnd0 ((d : ℚ) * a.1)⌋ < ((d * m / 2 : ℕ) : ℤ) + 1 := by
        rw [Int.floor_lt]
        refine lt_of_le_of_lt hi ?_
        have h7 : d * m < 2 * (d * m / 2 + 1) := by omega
        generalize d * m / 2 = q at h7
        have h8 : ((d * m : ℕ) : ℚ) < 2 * (q + 1) := by exact_mod_cast h7
        push_cast at h8 ⊢
        linarith
      omega
/-- **C55, population, binary64.** The same in binary64 arithmetic with rounding, for any `powf` that
on the numbers drawn returns neither NaN nor more than `max(x, 1)` for the base `x`, provided the
population of the last run with a large population is at most `2^53`. -/
theorem c55_population [Libm F64] {R : Type} {env : Env n F64 R} {o : RestartOptions n F64}
    {lrFactor : F64} {factor : Nat} {ls : List (Regime × RunRecord n F64 R)} (hf : factor ≠ 0)
    (h : BipopRuns env o lrFactor factor ls) {pre post : List (Regime × RunRecord n F64 R)}
    {x : RunRecord n F64 R} (hs : ls = pre ++ (.small, x) :: post)
    (hpow : ∀ m u, env.CanDraw u →
      Flt.isNaN (Flt.powf (Flt.ofNat m / 2) (Flt.powi u 2) : F64) = false ∧
      Flt.le (Flt.powf (Flt.ofNat m / 2) (Flt.powi u 2) : F64) (Flt.fmax (Flt.ofNat m / 2) 1) = true)
    (hd : 1 ≤ o.defaultOptions.populationSize)
    (hl : ∀ last, lastIpop pre = some last → last.options.populationSize ≤ 2 ^ 53) :
    ∃ last, lastIpop pre = some last ∧
      o.defaultOptions.populationSize ≤ x.options.populationSize ∧
      x.options.populationSize ≤
        max o.defaultOptions.populationSize (last.options.populationSize / 2) := by
  obtain ⟨last, u, k, h1, h2, h3, h4, _⟩ := bipop_small h hs
  refine ⟨last, h1, ?_⟩
  have hl := hl last h1
  rw [h3] at hl
  rw [h3, h4]
  have hm : 1 ≤ factor ^ k := Nat.one_le_pow _ _ (Nat.pos_of_ne_zero hf)
  obtain ⟨p1, p2⟩ := hpow (factor ^ k) u h2
  generalize o.defaultOptions.populationSize = d at *
  generalize factor ^ k = m at *
  have hm53 : m ≤ 2 ^ 53 := le_trans (Nat.le_mul_of_pos_left m hd) hl
  generalize (Flt.powf (Flt.ofNat m / 2) (Flt.powi u 2) : F64) = p at p1 p2
  -- the base `m / 2` is exact
  obtain ⟨c, hc, hc1⟩ := Bin64.rnd_of_abs_le (q := (m : ℚ))
    (by rw [rnd0_nat hm53, abs_of_nonneg (by positivity)]; exact_mod_cast hm53)
  rw [rnd0_nat hm53] at hc1
  obtain ⟨two, htwo, htwo1⟩ := Bin64.rnd_of_abs_le (q := ((2 : ℕ) : ℚ))
    (by rw [rnd0_nat (by norm_num)]; norm_num)
  obtain ⟨one, hone, hone1⟩ := Bin64.rnd_of_abs_le (q := ((1 : ℕ) : ℚ))
    (by rw [rnd0_nat (by norm_num)]; norm_num)
  rw [rnd0_nat (by norm_num)] at htwo1 hone1
  obtain ⟨b, hb, hb1⟩ := Bin64.rnd_of_abs_le (q := (m : ℚ) / 2) (by
    rw [rnd0_half hm53, abs_of_nonneg (by positivity)]
    have : (m : ℚ) ≤ 2 ^ 53 := by exact_mod_cast hm53
    have : (0 : ℚ) ≤ m := by positivity
    linarith)
  rw [rnd0_half hm53] at hb1
  have eone : (1 : F64) = .fin one := by
    show Bin64.rnd _ = _
    simpa using hone
  have ebase : (Flt.ofNat m / 2 : F64) = .fin b := by
    have e1 : (Flt.ofNat m : F64) = .fin c := by
      show Bin64.rnd _ = _
      simpa using hc
    have e2 : (2 : F64) = .fin two := by
      show Bin64.rnd _ = _
      simpa using htwo
    rw [e1, e2]
    show (if two.1 = 0 then _ else Bin64.rnd (c.1 / two.1)) = _
    rw [htwo1, if_neg (by norm_num), hc1]
    simpa using hb
  rw [ebase, eone] at p2
  rw [eone]
  have ele : ∀ a b : Bin64, Flt.le (.fin a : F64) (.fin b) = decide (a.1 ≤ b.1) := fun _ _ => rfl
  have elt : ∀ a b : Bin64, Flt.lt (.fin a : F64) (.fin b) = decide (a.1 < b.1) := fun _ _ => rfl
  have enan : ∀ a : Bin64, Flt.isNaN (.fin a : F64) = false := fun _ => rfl
  have emax : ∀ a b : Bin64, ∃ c : Bin64, Flt.fmax (.fin a : F64) (.fin b) = .fin c ∧
      c.1 = max a.1 b.1 := by
    intro a b
    unfold Flt.fmax
    rw [enan, enan, elt]
    by_cases hab : a.1 < b.1
    · exact ⟨b, by simp [hab], (max_eq_right hab.le).symm⟩
    · exact ⟨a, by simp [hab], (max_eq_left (not_lt.mp hab)).symm⟩
  obtain ⟨t, ht, ht1⟩ := emax b one
  rw [ht] at p2
  have hq : ∃ a : Bin64, Flt.fmax p (.fin one) = .fin a ∧ 1 ≤ a.1 ∧ a.1 ≤ max ((m : ℚ) / 2) 1 := by
    rw [hb1, hone1] at ht1
    push_cast at ht1 hone1
    cases p with
    | nan => exact absurd p1 (by show ¬ (true = false); simp)
    | pinf => exact absurd p2 (by show ¬ (false = true); simp)
    | ninf =>
      refine ⟨one, ?_, by rw [hone1], by rw [hone1]; exact le_max_right _ _⟩
      show (if false = true then _ else if false = true then _ else
        if Flt.lt (Ext.ninf : F64) (.fin one) = true then _ else _) = _
      have : Flt.lt (Ext.ninf : F64) (.fin one) = true := rfl
      simp [this]
    | fin a =>
      obtain ⟨t', ht', ht1'⟩ := emax a one
      rw [ele, decide_eq_true_iff, ht1] at p2
      refine ⟨t', ht', ?_, ?_⟩
      · rw [ht1', hone1]; exact le_max_right _ _
      · rw [ht1', hone1]; exact max_le p2 (le_max_right _ _)
  obtain ⟨a, ha, ha1, ha2⟩ := hq
  rw [ha]
  exact f64_population hd hm hl ha1 ha2

/-! ### C52, termination -/

/-- A run of the restarter never ends. -/
def RunDiverges (env : Env n F R) (kind : EvalKind) (reuse : Bool) (s0 : RestartState n F R) :
    Prop :=
  ∃ s s1, Heads env kind reuse s0 s ∧ s.precheck env = (none, s1) ∧ s1.oneRun env kind = .diverge

/-- A loop that uses up its fuel, without a run that never ends, made that many passes. -/
theorem loop_diverge {fuel : Nat} {s0 s : RestartState n F R} (hh : Heads env kind reuse s0 s)
    (h : s.loop env kind reuse fuel = .diverge) :
    RunDiverges env kind reuse s0 ∨
      ∃ s1, Heads env kind reuse s0 s1 ∧ s1.records.length = s.records.length + fuel := by
  induction fuel generalizing s with
  | zero => exact .inr ⟨s, hh, rfl⟩
  | succ fuel ih =>
    unfold RestartState.loop at h
    split at h
    · simp at h
    · rename_i s1 hp
      cases h1 : s1.oneRun env kind with
      | diverge => exact .inl ⟨s, s1, hh, hp, h1⟩
      | panic p => rw [h1] at h; simp at h
      | ok x =>
        obtain ⟨s2, rec, control⟩ := x
        rw [h1] at h
        simp only [Outcome.ok_bind] at h
        split at h
        · simp at h
        · rename_i s3 hpc
          rcases ih (.step hh hp h1 hpc) h with h2 | ⟨s4, h2, h3⟩
          · exact .inl h2
          · refine .inr ⟨s4, h2, ?_⟩
            rw [h3, (pass_of (reuse := reuse) hp h1 hpc).records]
            simp only [List.length_append, List.length_cons, List.length_nil]
            omega

/-- **C52, `Local` ends.** After at most `max(m, 1)` passes through its loop (`fuel` counts them) the
restarter has ended, unless one of the runs never ends. -/
theorem c52_local_ends {l : Local F} {m : Nat} {f : Option F} (hl : Local.new m f = .ok l)
    (h0 : Restarter.new env o = .ok r) (hs : o.strategy = .local l) {fuel : Nat}
    (hf : max m 1 ≤ fuel) (h : (r.start env src).loop env kind reuse fuel = .diverge) :
    RunDiverges env kind reuse (r.start env src) := by
  obtain ⟨_, hst, _⟩ := restarter_new h0
  have hl0 : l.runs = 0 ∧ l.maxRuns = m := by
    rw [(local_new hl).1]
    exact ⟨rfl, rfl⟩
  rcases loop_diverge .refl h with h1 | ⟨s1, h1, h2⟩
  · exact h1
  · exfalso
    have hz : (r.start env src).records.length = 0 := rfl
    rcases (heads_local hl0.1 (hst.trans hs) h1).2 with h3 | h3
    · rw [h3, hz] at h2
      simp at h2
      omega
    · rw [hz] at h2
      omega

/-- **C52, `IPOP` ends.** After at most ten passes through its loop the restarter has ended, unless
one of the runs never ends. -/
theorem c52_ipop_ends {factor : Nat} {l : IPOP} (hl : IPOP.new factor = .ok l)
    (h0 : Restarter.new env o = .ok r) (hs : o.strategy = .ipop l) {fuel : Nat}
    (hf : 10 ≤ fuel) (h : (r.start env src).loop env kind reuse fuel = .diverge) :
    RunDiverges env kind reuse (r.start env src) := by
  obtain ⟨_, hst, _⟩ := restarter_new h0
  obtain ⟨rfl, _⟩ := ipop_new hl
  rcases loop_diverge .refl h with h1 | ⟨s1, h1, h2⟩
  · exact h1
  · exfalso
    have hz : (r.start env src).records.length = 0 := rfl
    have := (heads_ipop (hst.trans hs) h1).2
    omega

/-- How many runs with a large population BIPOP may still make, and how many evaluations its local
runs lag behind. -/
def bipopLeft (s : RestartState n F R) : Nat ×ₗ Nat :=
  match s.restarter.strategy with
  | .bipop b => toLex (10 - b.ipopRuns, b.ipopFunctionEvals - b.lrFunctionEvals)
  | _ => toLex (0, 0)

/-- **C52, `BIPOP` ends.** There is a number of passes through its loop after which the restarter has
ended, unless one of the runs never ends. -/
theorem c52_bipop_ends {lr : Option F} {factor : Option Nat} {b : BIPOP F}
    (hb : BIPOP.new lr factor = .ok b) (h0 : Restarter.new env o = .ok r)
    (hs : o.strategy = .bipop b) :
    ∃ N, ∀ fuel, N ≤ fuel → (r.start env src).loop env kind reuse fuel = .diverge →
      RunDiverges env kind reuse (r.start env src) := by
  obtain ⟨ho, hst, _⟩ := restarter_new h0
  have key : ∀ μ : Nat ×ₗ Nat, ∀ s : RestartState n F R, bipopLeft s = μ →
      Heads env kind reuse (r.start env src) s →
      ∃ N, ∀ fuel, N ≤ fuel → s.loop env kind reuse fuel = .diverge →
        RunDiverges env kind reuse (r.start env src) := by
    intro μ
    induction μ using WellFoundedLT.induction with
    | ind μ ih =>
      intro s hμ hh
      cases hp : s.precheck env with
      | mk reason s1 =>
      cases reason with
      | some reason =>
        refine ⟨1, fun fuel hf h => ?_⟩
        obtain ⟨fuel, rfl⟩ : ∃ k, fuel = k + 1 := ⟨fuel - 1, by omega⟩
        rw [RestartState.loop, hp] at h
        simp at h
      | none =>
      cases h1 : s1.oneRun env kind with
      | diverge => exact ⟨0, fun _ _ _ => ⟨s, s1, hh, hp, h1⟩⟩
      | panic p =>
        refine ⟨1, fun fuel hf h => ?_⟩
        obtain ⟨fuel, rfl⟩ : ∃ k, fuel = k + 1 := ⟨fuel - 1, by omega⟩
        rw [RestartState.loop, hp] at h
        simp [h1] at h
      | ok x =>
      obtain ⟨s2, rec, control⟩ := x
      cases hpc : s2.postcheck rec control with
      | mk reason s3 =>
      cases reason with
      | some reason =>
        refine ⟨1, fun fuel hf h => ?_⟩
        obtain ⟨fuel, rfl⟩ : ∃ k, fuel = k + 1 := ⟨fuel - 1, by omega⟩
        rw [RestartState.loop, hp] at h
        simp [h1, hpc] at h
      | none =>
        have p := pass_of (reuse := reuse) hp h1 hpc
        have hh' : Heads env kind reuse (r.start env src) (s3.store reuse rec) :=
          .step hh hp h1 hpc
        obtain ⟨b', ls, e1, _, e3, _, e5⟩ := heads_bipop hb (hst.trans hs) ho hh
        have hlt : bipopLeft (s3.store reuse rec) < μ := by
          rw [← hμ]
          have hf := p.finish
          rw [e1] at hf
          unfold bipopLeft
          rw [e1]
          have hev : 2 ≤ rec.evals :=
            le_trans (p.real.best p.valid).2.1 (p.real.best p.valid).2.2
          rw [← e3.runs] at e5
          unfold Strategy.finish at hf
          simp only at hf
          by_cases hu : b'.useLr = true
          · rw [if_pos hu] at hf
            simp only [Outcome.ok.injEq, Prod.mk.injEq] at hf
            rw [← hf.1]
            unfold BIPOP.useLr at hu
            simp only [Bool.and_eq_true, bne_iff_ne, ne_eq, decide_eq_true_eq] at hu
            rw [Prod.Lex.toLex_lt_toLex]
            right
            simp only [true_and]
            omega
          · rw [if_neg hu] at hf
            simp only [Outcome.bind_eq_ok, Outcome.ok.injEq, Prod.mk.injEq] at hf
            obtain ⟨_, _, hf, _⟩ := hf
            rw [← hf, Prod.Lex.toLex_lt_toLex]
            left
            show 10 - (b'.ipopRuns + 1) < 10 - b'.ipopRuns
            omega
        obtain ⟨N, hN⟩ := ih _ hlt _ rfl hh'
        refine ⟨N + 1, fun fuel hf h => ?_⟩
        obtain ⟨fuel, rfl⟩ : ∃ k, fuel = k + 1 := ⟨fuel - 1, by omega⟩
        rw [RestartState.loop, hp] at h
        simp only [h1, Outcome.ok_bind, hpc] at h
        exact hN fuel (by omega) h
  exact key _ _ rfl .refl

/-! ### Examples and refutations -/

open Witness in
/-- C52, C53: `Local` with two runs. -/
example : ∃ l, Local.new (F := F64) 2 none = .ok l ∧ ∃ r res s,
    Restarter.new (wenv 2) (restartOpts (.local l)) = .ok r ∧
    r.run (wenv 2) .seq (fun _ => sphere) = .ok (res, s) ∧ res.reason = .maxRuns ∧
    s.records.map (fun x => x.options.populationSize) = [4, 4] := by
  obtain ⟨r, res, s, h0, h, hp⟩ := of_tryRestart (env := wenv 2) (kind := .seq)
    (src := .factory fun _ => sphere) (reuse := false) (o := restartOpts (localStrategy 2))
    (p := fun res s => decide (res.reason = .maxRuns ∧
      s.records.map (fun x => x.options.populationSize) = [4, 4])) (by decide +kernel)
  exact ⟨_, localStrategy_made 2, r, res, s, h0, h, of_decide_eq_true hp⟩

open Witness in
/-- C52: IPOP with the factor one makes ten runs. -/
example : ∃ l, IPOP.new 1 = .ok l ∧ ∃ r res s,
    Restarter.new (wenv 2)
      { restartOpts (.ipop l) with maxGenerationsPerRun := some 1 } = .ok r ∧
    r.run (wenv 2) .seq (fun _ => sphere) = .ok (res, s) ∧ res.reason = .maxRuns ∧
    res.runs = 10 := by
  obtain ⟨r, res, s, h0, h, hp⟩ := of_tryRestart (env := wenv 2) (kind := .seq)
    (src := .factory fun _ => sphere) (reuse := false)
    (o := { restartOpts (.ipop ⟨0, 1, 1⟩) with maxGenerationsPerRun := some 1 })
    (p := fun res _ => decide (res.reason = .maxRuns ∧ res.runs = 10)) (by decide +kernel)
  exact ⟨_, rfl, r, res, s, h0, h, of_decide_eq_true hp⟩

open Witness in
/-- C53: IPOP with the factor two uses the populations 4, 8 and 16 before the limit on the
evaluations is reached. -/
example : ∃ l, IPOP.new 2 = .ok l ∧ ∃ r res s,
    Restarter.new (wenv 2)
      { restartOpts (.ipop l) with maxGenerationsPerRun := some 1, maxFunctionEvals := some 20 } = .ok r ∧
    r.run (wenv 2) .seq (fun _ => sphere) = .ok (res, s) ∧
    s.records.map (fun x => x.options.populationSize) = [4, 8, 16] := by
  obtain ⟨r, res, s, h0, h, hp⟩ := of_tryRestart (env := wenv 2) (kind := .seq)
    (src := .factory fun _ => sphere) (reuse := false)
    (o := { restartOpts (.ipop ⟨0, 1, 2⟩) with maxGenerationsPerRun := some 1, maxFunctionEvals := some 20 })
    (p := fun _ s => decide (s.records.map (fun x => x.options.populationSize) = [4, 8, 16]))
    (by decide +kernel)
  exact ⟨_, rfl, r, res, s, h0, h, of_decide_eq_true hp⟩

open Witness in
/-- C54, C55: BIPOP makes a run with a large population, a local run with half of its evaluations,
another local run and a run with a larger population. -/
example : ∃ b, BIPOP.new (F := F64) none none = .ok b ∧ ∃ r res s,
    Restarter.new (wenv 2)
      { restartOpts (.bipop b) with maxGenerationsPerRun := none, maxFunctionEvalsPerRun := some 16, maxFunctionEvals := some 36 } = .ok r ∧
    r.run (wenv 2) .seq (fun _ => sphere) = .ok (res, s) ∧
    s.records.map (fun x => (x.options.populationSize, x.evals)) =
      [(4, 16), (4, 8), (4, 8), (8, 16)] := by
  obtain ⟨r, res, s, h0, h, hp⟩ := of_tryRestart (env := wenv 2) (kind := .seq)
    (src := .factory fun _ => sphere) (reuse := false)
    (o := { restartOpts (.bipop ⟨0, 0, 1, 2, 0, 1, Flt.ofRat (2 / 10), 0⟩) with maxGenerationsPerRun := none, maxFunctionEvalsPerRun := some 16, maxFunctionEvals := some 36 })
    (p := fun _ s => decide (s.records.map (fun x => (x.options.populationSize, x.evals)) =
      [(4, 16), (4, 8), (4, 8), (8, 16)])) (by decide +kernel)
  exact ⟨_, rfl, r, res, s, h0, h, of_decide_eq_true hp⟩

open Witness in
/-- **C55, refutation.** Without a limit on the evaluations per run a local run may use as many
evaluations as the last run with a large population: its own limit is not applied. -/
theorem c55_no_limit : ∃ b, BIPOP.new (F := F64) none none = .ok b ∧ ∃ r res s,
    Restarter.new (wenv 2)
      { restartOpts (.bipop b) with maxGenerationsPerRun := some 3, maxFunctionEvals := some 20 } = .ok r ∧
    r.run (wenv 2) .seq (fun _ => sphere) = .ok (res, s) ∧
    s.records.map (fun x => (x.options.populationSize, x.evals)) = [(4, 12), (4, 12)] := by
  obtain ⟨r, res, s, h0, h, hp⟩ := of_tryRestart (env := wenv 2) (kind := .seq)
    (src := .factory fun _ => sphere) (reuse := false)
    (o := { restartOpts (.bipop ⟨0, 0, 1, 2, 0, 1, Flt.ofRat (2 / 10), 0⟩) with maxGenerationsPerRun := some 3, maxFunctionEvals := some 20 })
    (p := fun _ s => decide (s.records.map (fun x => (x.options.populationSize, x.evals)) =
      [(4, 12), (4, 12)])) (by decide +kernel)
  exact ⟨_, rfl, r, res, s, h0, h, of_decide_eq_true hp⟩

end Cmaes
