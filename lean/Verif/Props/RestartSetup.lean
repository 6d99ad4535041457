import Verif.Props.RestartStrategy
import Verif.Props.NoPanic

/-!
# Restarts: the search range and the absence of panics (C58, C61)
-/

set_option linter.unusedSectionVars false

namespace Cmaes
variable {n : Nat} {F R : Type} [Flt F] [FltLaws F]
variable {env : Env n F R} {kind : EvalKind} {reuse : Bool} {src : ObjSource n F}
  {o : RestartOptions n F} {r : Restarter n F R} {res : RestartResults n F}
  {s : RestartState n F R}
open FltLaws

/-! ### C58 -/

/-- **C58, flipped ranges.** `RestartOptions::new` keeps the two ends of the range, in order: the
start is not above the end. -/
theorem c58_ordered (a b : F) (st : Strategy F) :
    (((RestartOptions.new n a b st).searchStart = a ∧ (RestartOptions.new n a b st).searchEnd = b) ∨
     ((RestartOptions.new n a b st).searchStart = b ∧
        (RestartOptions.new n a b st).searchEnd = a)) ∧
    (Flt.le a b = true → (RestartOptions.new n a b st).searchStart = a) ∧
    (Flt.isNaN a = false → Flt.isNaN b = false →
      Flt.le (RestartOptions.new n a b st).searchStart (RestartOptions.new n a b st).searchEnd =
        true) := by
  by_cases h : Flt.le a b = true
  · have e1 : (RestartOptions.new n a b st).searchStart = a := by simp [RestartOptions.new, h]
    have e2 : (RestartOptions.new n a b st).searchEnd = b := by simp [RestartOptions.new, h]
    rw [e1, e2]
    exact ⟨.inl ⟨rfl, rfl⟩, fun _ => rfl, fun _ _ => h⟩
  · have e1 : (RestartOptions.new n a b st).searchStart = b := by simp [RestartOptions.new, h]
    have e2 : (RestartOptions.new n a b st).searchEnd = a := by simp [RestartOptions.new, h]
    rw [e1, e2]
    refine ⟨.inr ⟨rfl, rfl⟩, fun h' => absurd h' h, fun ha hb => ?_⟩
    rw [le_iff] at h ⊢
    refine ⟨hb, ha, ?_⟩
    by_contra hc
    exact h ⟨ha, hb, (not_le.mp hc).le⟩

/-- **C58, build.** `build` fails with `Dimensions` exactly for zero dimensions and otherwise with
`SearchRange` exactly if the width of the range, `end - start`, equals zero. -/
theorem c58_build (env : Env n F R) (o : RestartOptions n F) :
    (Restarter.new env o = .error .dimensions ↔ n = 0) ∧
    (Restarter.new env o = .error .searchRange ↔
      n ≠ 0 ∧ Flt.feq (o.searchEnd - o.searchStart) 0 = true) ∧
    ((∃ r, Restarter.new env o = .ok r) ↔
      n ≠ 0 ∧ Flt.feq (o.searchEnd - o.searchStart) 0 = false) := by
  unfold Restarter.new
  by_cases h1 : n = 0
  · simp [h1]
  · by_cases h2 : Flt.feq (o.searchEnd - o.searchStart) 0 = true
    · simp [h1, h2]
    · simp [h1, h2]

/-- **C58, width.** In binary64 the width of a range with finite ends is zero exactly if the ends
are equal: the subtraction never underflows to zero. -/
theorem c58_width [Libm F64] (a b : Bin64) :
    Flt.feq ((.fin b : F64) - .fin a) 0 = true ↔ a = b := by
  have hsub : ((.fin b : F64) - .fin a) = Bin64.rnd (b.1 + -a.1) := rfl
  have hz : (0 : F64) = .fin ⟨0, by simp, by simp⟩ := by
    show Bin64.rnd _ = _
    unfold Bin64.rnd
    simp
  rw [hsub, hz]
  constructor
  · intro h
    unfold Bin64.rnd at h
    split_ifs at h with h1 h2
    · have h3 : rnd0 (b.1 + -a.1) = 0 := by
        have h' : decide (rnd0 (b.1 + -a.1) = 0) = true := h
        exact of_decide_eq_true h'
      by_contra hne
      have hd : b.1 + -a.1 ≠ 0 := by
        intro h0
        exact hne (Subtype.ext (by linarith))
      -- both ends are multiples of the smallest positive number
      have grid : ∀ c : Bin64, ∃ z : ℤ, c.1 = z * 2 ^ (-1074 : ℤ) := by
        intro c
        have hc : c.1 = roundEven (c.1 / 2 ^ expo c.1) * 2 ^ expo c.1 := c.2.1.symm
        have he : -1074 ≤ expo c.1 := le_max_right _ _
        refine ⟨roundEven (c.1 / 2 ^ expo c.1) * 2 ^ (expo c.1 + 1074).toNat, ?_⟩
        have e2 : (2 : ℚ) ^ expo c.1 = 2 ^ (expo c.1 + 1074).toNat * 2 ^ (-1074 : ℤ) := by
          generalize expo c.1 = e at he
          rw [← zpow_natCast, Int.toNat_of_nonneg (by omega), ← zpow_add₀ (by norm_num)]
          congr 1
          omega
        rw [Int.cast_mul, Int.cast_pow, mul_assoc]
        push_cast
        rw [← e2]
        exact hc
      obtain ⟨z1, hz1⟩ := grid a
      obtain ⟨z2, hz2⟩ := grid b
      have hpos : (0 : ℚ) < 2 ^ (-1074 : ℤ) := by positivity
      have hdz : b.1 + -a.1 = ((z2 - z1 : ℤ) : ℚ) * 2 ^ (-1074 : ℤ) := by
        rw [hz1, hz2]; push_cast; ring
      have hz0 : z2 - z1 ≠ 0 := by
        intro h0
        rw [hdz, h0] at hd
        simp at hd
      have hr1 : rnd0 ((1 : ℤ) * 2 ^ (-1074 : ℤ)) = ((1 : ℤ) : ℚ) * 2 ^ (-1074 : ℤ) :=
        rnd0_exact (by norm_num) (by norm_num)
      rcases lt_or_gt_of_ne hz0 with hneg | hps
      · have h4 : ((1 : ℤ) : ℚ) * 2 ^ (-1074 : ℤ) ≤ -(b.1 + -a.1) := by
          rw [hdz]
          have : (1 : ℚ) ≤ -((z2 - z1 : ℤ) : ℚ) := by
            have : (1 : ℤ) ≤ -(z2 - z1) := by omega
            exact_mod_cast this
          push_cast at this ⊢
          nlinarith
        have := rnd0_mono h4
        rw [hr1, rnd0_neg, h3] at this
        push_cast at this
        linarith
      · have h4 : ((1 : ℤ) : ℚ) * 2 ^ (-1074 : ℤ) ≤ b.1 + -a.1 := by
          rw [hdz]
          have : (1 : ℚ) ≤ ((z2 - z1 : ℤ) : ℚ) := by
            have : (1 : ℤ) ≤ z2 - z1 := by omega
            exact_mod_cast this
          push_cast at this ⊢
          nlinarith
        have := rnd0_mono h4
        rw [hr1, h3] at this
        push_cast at this
        linarith
    · simp [Flt.feq, Ext.feq] at h
    · simp [Flt.feq, Ext.feq] at h
  · rintro rfl
    have : a.1 + -a.1 = 0 := by ring
    rw [this]
    show Flt.feq (Bin64.rnd 0) _ = true
    unfold Bin64.rnd
    simp [Flt.feq, Ext.feq]

/-- The generator's contract: what `gen_range(lo..=hi)` returns lies in the range. -/
def UniformOk (rng : RngOps R F) : Prop :=
  ∀ lo hi g, Flt.le lo hi = true →
    Flt.le lo (rng.uniform lo hi g).1 = true ∧ Flt.le (rng.uniform lo hi g).1 hi = true

theorem genRanges_mem {rng : RngOps R F} (hu : UniformOk rng) {lo hi : F} {k : Nat} {g g' : R}
    {xs : List F} (h : genRanges rng lo hi k g = .ok (xs, g')) :
    xs.length = k ∧ ∀ x ∈ xs, Flt.le lo x = true ∧ Flt.le x hi = true := by
  induction k generalizing g g' xs with
  | zero =>
    simp only [genRanges, Outcome.ok.injEq, Prod.mk.injEq] at h
    rw [← h.1]
    simp
  | succ k ih =>
    simp only [genRanges, Outcome.bind_eq_ok, Outcome.ok.injEq, Prod.mk.injEq] at h
    obtain ⟨⟨x, g1⟩, h1, ⟨ys, g2⟩, h2, h3, _⟩ := h
    obtain ⟨i1, i2⟩ := ih h2
    subst h3
    refine ⟨by simp [i1], ?_⟩
    intro y hy
    rw [List.mem_cons] at hy
    rcases hy with rfl | hy
    · unfold genRange at h1
      simp only at h1
      split at h1
      · rename_i hc
        simp only [Bool.and_eq_true] at hc
        simp only [Outcome.ok.injEq] at h1
        have := hu lo hi g hc.1.1
        rw [h1] at this
        exact this
      · simp at h1
    · exact i2 y hy

/-- **C58, means.** Every run starts from a mean whose coordinates all lie in the search range. -/
theorem c58_mean (hu : UniformOk env.restartRng) (h0 : Restarter.new env o = .ok r)
    (h : r.runInternal env kind src reuse = .ok (res, s)) {x : RunRecord n F R}
    (hx : x ∈ s.records) (i : Fin n) :
    Flt.le o.searchStart (x.options.initialMean i) = true ∧
      Flt.le (x.options.initialMean i) o.searchEnd = true := by
  obtain ⟨sk, sk', control, hh, rs⟩ := did_run_mem h hx
  obtain ⟨ho, _⟩ := restarter_new h0
  obtain ⟨hok, _⟩ := hh.basic
  obtain ⟨mean, rng1, seed, rng2, hm, _, hc⟩ := rs.config
  rw [hok, ho] at hc hm
  have hmean : x.options.initialMean = mean := by
    unfold Strategy.configure at hc
    split at hc
    · simp only [Outcome.ok.injEq, Prod.mk.injEq] at hc
      rw [← hc.1]; rfl
    · simp only [Outcome.bind_eq_ok, Outcome.ok.injEq, Prod.mk.injEq] at hc
      obtain ⟨_, _, hc, _⟩ := hc
      rw [← hc]; rfl
    · split at hc
      · simp only [Outcome.ok.injEq, Prod.mk.injEq] at hc
        rw [← hc.1]; rfl
      · simp only [Outcome.bind_eq_ok, Outcome.ok.injEq, Prod.mk.injEq] at hc
        obtain ⟨_, _, hc, _⟩ := hc
        rw [← hc]; rfl
  rw [hmean]
  unfold generateInitialMean at hm
  simp only [Outcome.bind_eq_ok, Outcome.ok.injEq, Prod.mk.injEq] at hm
  obtain ⟨⟨xs, g⟩, h1, h2, _⟩ := hm
  obtain ⟨i1, i2⟩ := genRanges_mem hu h1
  rw [← h2]
  have hlt : i.1 < xs.length := by rw [i1]; exact i.2
  have : xs.getD i.1 0 ∈ xs := by
    rw [List.getD_eq_getElem?_getD, List.getElem?_eq_getElem hlt]
    exact List.getElem_mem hlt
  exact i2 _ this

/-! ### C61 -/

/-- A panic of the loop comes from a run. -/
theorem loop_panic {fuel : Nat} {s0 s : RestartState n F R} {p : Panic}
    (hh : Heads env kind reuse s0 s) (h : s.loop env kind reuse fuel = .panic p) :
    ∃ s1 s2, Heads env kind reuse s0 s1 ∧ s1.precheck env = (none, s2) ∧
      s2.oneRun env kind = .panic p := by
  induction fuel generalizing s with
  | zero => simp [RestartState.loop] at h
  | succ fuel ih =>
    unfold RestartState.loop at h
    split at h
    · simp at h
    · rename_i s1 hp
      cases h1 : s1.oneRun env kind with
      | diverge => rw [h1] at h; simp at h
      | panic q =>
        rw [h1] at h
        simp only [Outcome.panic_bind, Outcome.panic.injEq] at h
        subst h
        exact ⟨s, s1, hh, hp, h1⟩
      | ok x =>
        obtain ⟨s2, rec, control⟩ := x
        rw [h1] at h
        simp only [Outcome.ok_bind] at h
        split at h
        · simp at h
        · rename_i s3 hpc
          exact ih (.step hh hp h1 hpc) h

/-- What the strategy chooses. -/
theorem configure_chooses (hmade : o.strategy.Made) (ho : r.options = o)
    (hst : r.strategy = o.strategy) (hno : o.NoOverflow)
    (hd : 2 ≤ o.defaultOptions.populationSize)
    (hh : Heads env kind reuse (r.start env src) s)
    {mean : Vec n F} {seed : Nat} {g : R} :
    ∃ x g', s.restarter.strategy.configure env.restartRng (o.runOptions mean seed) o.rangeSize g =
        .ok (x, g') ∧ o.MayRun x ∧ o.MayChoose env x.initialStepSize x.populationSize ∧
      x.cm = o.defaultOptions.cm ∧ ∀ e, ∃ y, s.restarter.strategy.finish e = .ok y := by
  unfold RestartOptions.NoOverflow at hno
  unfold RestartOptions.MayChoose
  unfold Strategy.Made at hmade
  have mulok : ∀ a b : Nat, a * b < 2 ^ 64 → usizeMul a b = .ok (a * b) := by
    intro a b hlt
    unfold usizeMul
    rw [if_neg (not_le.mpr hlt)]
  have mono : ∀ d f k : Nat, f ≠ 0 → k ≤ 10 → d * f ^ 10 < 2 ^ 64 → d * f ^ k < 2 ^ 64 := by
    intro d f k hf hk hd
    exact lt_of_le_of_lt (Nat.mul_le_mul_left d (Nat.pow_le_pow_right (Nat.pos_of_ne_zero hf) hk)) hd
  cases hs : o.strategy with
  | «local» l =>
    rw [hs] at hmade hst
    obtain ⟨m, f, hl⟩ := hmade
    have hl0 := (local_new hl).1
    have hr : l.runs = 0 := by rw [hl0]
    obtain ⟨b1, _⟩ := heads_local hr hst hh
    rw [b1]
    exact ⟨_, _, rfl, ⟨mean, seed, _, _, _, rfl⟩, ⟨rfl, rfl⟩, rfl, fun e => ⟨_, rfl⟩⟩
  | ipop l =>
    rw [hs] at hmade hst hno
    obtain ⟨f, hl⟩ := hmade
    obtain ⟨rfl, hf⟩ := ipop_new hl
    obtain ⟨b1, b2⟩ := heads_ipop hst hh
    rw [b1]
    have e1 := mulok _ _ (mono o.defaultOptions.populationSize f s.records.length hf b2.le hno)
    have e2 := mulok (f ^ s.records.length) f (by
      rw [← pow_succ]
      have := mono 1 f (s.records.length + 1) hf b2
        (lt_of_le_of_lt (Nat.mul_le_mul_right _ (by omega)) hno)
      rwa [one_mul] at this)
    have e1' : usizeMul (o.runOptions mean seed).populationSize (f ^ s.records.length) = .ok _ := e1
    simp only [Strategy.configure, Strategy.finish, e1', e2, Outcome.ok_bind]
    exact ⟨_, _, rfl, ⟨mean, seed, _, _, _, rfl⟩, ⟨rfl, _, rfl⟩, rfl, fun e => ⟨_, rfl⟩⟩
  | bipop b =>
    rw [hs] at hmade hst hno
    obtain ⟨lr, f, hb⟩ := hmade
    obtain ⟨i0, hf⟩ := bipop_new (R := R) (n := n) hb
    obtain ⟨b', ls, b1, _, i, _, b5⟩ := heads_bipop hb hst ho hh
    rw [b1]
    simp only [i0.factor] at hno
    simp only [i0.factor, i0.lrFactor]
    have e1 : usizeMul (o.runOptions mean seed).populationSize b'.ipopCurrentMultiplier =
        .ok (o.defaultOptions.populationSize * f.getD 2 ^ runsOf .ipop ls) := by
      rw [i.mult]
      exact mulok _ _ (mono o.defaultOptions.populationSize _ _ hf b5.le hno)
    have e2 := mulok b'.ipopCurrentMultiplier b'.ipopIncreaseFactor (by
      rw [i.mult, i.factor, ← pow_succ]
      have := mono 1 _ (runsOf .ipop ls + 1) hf b5
        (lt_of_le_of_lt (Nat.mul_le_mul_right _ (by omega)) hno)
      rwa [one_mul] at this)
    by_cases hu : b'.useLr = true
    · simp only [Strategy.configure, Strategy.finish, hu, ↓reduceIte]
      refine ⟨_, _, rfl, ⟨mean, seed, _, _, _, rfl⟩, .inr ?_, rfl, fun e => ⟨_, rfl⟩⟩
      obtain ⟨x, _, _, hx3⟩ := i.last (i.first (i.useLr.mp hu).1)
      refine ⟨(env.restartRng.unit g).1, (env.restartRng.unit (env.restartRng.unit g).2).1,
        runsOf .ipop ls - 1, ⟨_, rfl⟩, ⟨_, rfl⟩, ?_, ?_⟩
      · show _ * b'.lrInitialStepSizeFactor * _ = _
        rw [i.lrFactor]
      · rw [← hx3]
        rfl
    · simp only [Strategy.configure, Strategy.finish, hu, e1, e2, Outcome.ok_bind]
      exact ⟨_, _, rfl, ⟨mean, seed, _, _, _, rfl⟩, .inl ⟨rfl, _, rfl⟩, rfl, fun e => ⟨_, rfl⟩⟩

theorem genRanges_ok {rng : RngOps R F} {lo hi : F}
    (h : ∀ g, ∃ x, genRange rng lo hi g = .ok x) (k : Nat) (g : R) :
    ∃ x, genRanges rng lo hi k g = .ok x := by
  induction k generalizing g with
  | zero => exact ⟨_, rfl⟩
  | succ k ih =>
    obtain ⟨⟨x, g1⟩, h1⟩ := h g
    obtain ⟨⟨xs, g2⟩, h2⟩ := ih g1
    simp only [genRanges, h1, h2, Outcome.ok_bind]
    exact ⟨_, rfl⟩

/-- **C61.** A restarter never panics if: the search range is usable by the generator; the default
population size is at least two and the default `cm` is a normal number in `(0, 1]`; every step size
and population size the strategy can choose is valid; the population sizes do not overflow; and no
run of a successfully built `CMAES` panics. Missing from the full claim: the step size is not always
valid when `Local::new` or `BIPOP::new` accepted the factor (`c61_tiny_factor`). -/
theorem c61_no_panic_partial (hmade : o.strategy.Made) (h0 : Restarter.new env o = .ok r)
    (hrange : o.RangeUsable)
    (hcm : Flt.isNormal o.defaultOptions.cm = true ∧ Flt.lt 0 o.defaultOptions.cm = true ∧
      Flt.le o.defaultOptions.cm 1 = true)
    (hd : 2 ≤ o.defaultOptions.populationSize) (hno : o.NoOverflow)
    (hchoice : ∀ step population, o.MayChoose env step population →
      (Flt.isNormal step = true ∧ Flt.lt 0 step = true) ∧ 2 ≤ population)
    (hrun : ∀ w obj x c0 c1 k p, o.MayRun x → CMAES.new env w obj x = .ok c0 →
      c1 = c0 ∨ c1 = c0.printRunInfo k → c1.run env kind ≠ .panic p)
    (hsrc : (∃ get, src = .factory get ∧ reuse = false) ∨
      ∃ obj, src = .once (some obj) ∧ reuse = true) (p : Panic) :
    r.runInternal env kind src reuse ≠ .panic p := by
  intro h
  obtain ⟨ho, hst, _, hn, _⟩ := restarter_new h0
  have hl : (r.start env src).loop env kind reuse env.restartFuel = .panic p := by
    unfold Restarter.runInternal at h
    rw [Outcome.bind_eq_panic] at h
    rcases h with h | ⟨x, _, h⟩
    · exact h
    · simp at h
  obtain ⟨s1, s2, hh, hp, hone⟩ := loop_panic .refl hl
  have htake : ∃ x, s2.takeObjective = .ok x := by
    rcases hsrc with ⟨get, rfl, rfl⟩ | ⟨obj, rfl, rfl⟩
    · obtain ⟨b1, b2, _⟩ := heads_factory hh
      obtain ⟨_, _, _, w, rfl, _⟩ := precheck_none hp
      unfold RestartState.takeObjective
      simp only [b1, b2, ObjSource.call, Outcome.ok_bind]
      exact ⟨_, rfl⟩
    · exact c59_no_panic hh hp
  obtain ⟨_, _, _, w, rfl, _⟩ := precheck_none hp
  obtain ⟨hok, _⟩ := hh.basic
  obtain ⟨⟨obj, s3⟩, htake⟩ := htake
  obtain ⟨t1, t2, t3, t4, t5, t6⟩ := takeObjective_same htake
  unfold RestartState.oneRun at hone
  simp only [hok, ho] at hone
  obtain ⟨⟨xs, g1⟩, hmean⟩ := genRanges_ok (rng := env.restartRng) (lo := o.searchStart)
    (hi := o.searchEnd) (fun g => by
      unfold genRange
      simp only [hrange.1, hrange.2.1, hrange.2.2, Bool.not_false, Bool.and_self, ↓reduceIte]
      exact ⟨_, rfl⟩) n s1.restarter.rng
  unfold generateInitialMean at hone
  simp only [hmean, Outcome.ok_bind, htake] at hone
  obtain ⟨x, g', hconf, hmr, hch, hxcm, hfin⟩ := configure_chooses (env := env) (kind := kind)
    (reuse := reuse) (src := src) hmade ho hst hno hd hh (mean := fun i => xs.getD i 0)
    (seed := (env.restartRng.u64 g1).1) (g := (env.restartRng.u64 g1).2)
  have t1' : s3.restarter = s1.restarter := t1
  rw [t1'] at hone
  unfold RestartOptions.rangeSize at hconf
  rw [hconf] at hone
  simp only [Outcome.ok_bind] at hone
  obtain ⟨v1, v2⟩ := hchoice _ _ hch
  obtain ⟨c0, hc0⟩ := (c30_valid_iff env s3.world obj x).mpr ⟨hn, v2, v1, by rw [hxcm]; exact hcm⟩
  rw [hc0] at hone
  simp only at hone
  rw [Outcome.bind_eq_panic] at hone
  rcases hone with hone | ⟨⟨c2, d⟩, _, hone⟩
  · refine hrun s3.world obj x c0 _ (s3.runs + 1) p hmr hc0 ?_ hone
    split
    · exact .inr rfl
    · exact .inl rfl
  · obtain ⟨y, hy⟩ := hfin c2.functionEvals
    simp only [hy, Outcome.ok_bind] at hone
    simp at hone

/-- **C61, typical options.** The last two hypotheses of `c61_no_panic_partial` spelled out for
options without constraints, plot and printing, with a limit on the generations per run. -/
theorem c61_no_panic_simple {g : Nat} (hmade : o.strategy.Made) (h0 : Restarter.new env o = .ok r)
    (hrange : o.RangeUsable)
    (hcm : Flt.isNormal o.defaultOptions.cm = true ∧ Flt.lt 0 o.defaultOptions.cm = true ∧
      Flt.le o.defaultOptions.cm 1 = true)
    (hd : 2 ≤ o.defaultOptions.populationSize) (hno : o.NoOverflow)
    (hchoice : ∀ step population, o.MayChoose env step population →
      (Flt.isNormal step = true ∧ Flt.lt 0 step = true) ∧ 2 ≤ population)
    (hk : o.defaultOptions.constraints = none) (hf : 2 ≤ env.resampleFuel)
    (hpo : o.defaultOptions.plotOptions = none) (hpr : o.defaultOptions.printGapEvals = none)
    (hm : ∀ l, ∃ v, env.medianNaN l = .ok v)
    (hg : o.maxGenerationsPerRun = some g) (hg' : g < 2 ^ 30) (hfuel : max 1 g ≤ env.runFuel)
    (get : List (List (Vec n F × F)) → Obj n F) (p : Panic) :
    r.run env kind get ≠ .panic p := by
  refine c61_no_panic_partial hmade h0 hrange hcm hd hno hchoice ?_ (.inl ⟨get, rfl, rfl⟩) p
  intro w obj x c0 c1 k q hx hc0 hc1 hq
  have ht : History.Of env obj x [] c1 := by
    refine ⟨w, c0, hc0, ?_⟩
    rcases hc1 with rfl | rfl
    · exact .refl _
    · exact .quiet (op := .printRunInfo k) (.refl c0) trivial rfl
  have hgen : c1.generation = 0 := by simpa using (c06_generations ht).2.1
  obtain ⟨mean, seed, step, population, evals, hx⟩ := hx
  have e1 : x.constraints = none := by rw [hx]; exact hk
  have e2 : x.plotOptions = none := by rw [hx]; exact hpo
  have e3 : x.printGapEvals = none := by rw [hx]; exact hpr
  have e4 : x.maxGenerations = some g := by rw [hx]; exact hg
  obtain ⟨c', d, hr⟩ := c26_run (g := g) ht (.inl ⟨e1, hf⟩) (by simp [e1]) (.inl hm) e4 hg'
    (by rw [hgen]; norm_num) (by simp [e2]) (by simp [e3])
    (by rw [hgen]; exact hfuel) kind
  rw [hr] at hq
  simp at hq

/-- Rounding keeps a number between two powers of two. -/
theorem rnd0_between {q : ℚ} {a b : ℤ} (ha : -1074 ≤ a) (hb : -1074 ≤ b) (h1 : 2 ^ a ≤ q)
    (h2 : q ≤ 2 ^ b) : (2 : ℚ) ^ a ≤ rnd0 q ∧ rnd0 q ≤ (2 : ℚ) ^ b := by
  have e : ∀ k : ℤ, -1074 ≤ k → rnd0 ((2 : ℚ) ^ k) = 2 ^ k := by
    intro k hk
    have := rnd0_exact (m := 1) (k := k) (by norm_num) hk
    simpa using this
  have l := rnd0_mono h1
  have u := rnd0_mono h2
  rw [e a ha] at l
  rw [e b hb] at u
  exact ⟨l, u⟩

theorem Bin64.rnd_between {q : ℚ} {a b : ℤ} (ha : -1074 ≤ a) (hb : -1074 ≤ b) (hb' : b ≤ 1023)
    (h1 : 2 ^ a ≤ q) (h2 : q ≤ 2 ^ b) :
    ∃ c : Bin64, Bin64.rnd q = .fin c ∧ (2 : ℚ) ^ a ≤ c.1 ∧ c.1 ≤ (2 : ℚ) ^ b := by
  obtain ⟨l, u⟩ := rnd0_between ha hb h1 h2
  have hpos : (0 : ℚ) < 2 ^ a := by positivity
  have hlt : |rnd0 q| < 2 ^ 1024 := by
    rw [abs_of_pos (lt_of_lt_of_le hpos l)]
    refine lt_of_le_of_lt u ?_
    have : (2 : ℚ) ^ b ≤ 2 ^ (1023 : ℤ) := zpow_le_zpow_right₀ (by norm_num) hb'
    refine lt_of_le_of_lt this ?_
    rw [← zpow_natCast]
    exact zpow_lt_zpow_right₀ (by norm_num) (by norm_num)
  exact ⟨⟨rnd0 q, rnd0_idem q, hlt⟩, by rw [Bin64.rnd, dif_pos hlt], l, u⟩

/-- **C61, `Local`, binary64.** If the product of the search range size and the factor is between
`2^-1000` and `2^1000`, the step size of `Local` is valid. -/
theorem c61_local_step [Libm F64] (size factor : Bin64)
    (h1 : (2 : ℚ) ^ (-1000 : ℤ) ≤ size.1 * factor.1) (h2 : size.1 * factor.1 ≤ (2 : ℚ) ^ (1000 : ℤ)) :
    Flt.isNormal (.fin size * .fin factor * Flt.ofRat (1 / 100) : F64) = true ∧
      Flt.lt 0 (.fin size * .fin factor * Flt.ofRat (1 / 100) : F64) = true := by
  obtain ⟨p, hp, p1, p2⟩ := Bin64.rnd_between (by norm_num) (by norm_num) (by norm_num) h1 h2
  obtain ⟨c, hc, c1, c2⟩ := Bin64.rnd_between (q := 1 / 100) (a := -7) (b := -6) (by norm_num)
    (by norm_num) (by norm_num) (by norm_num) (by norm_num)
  have hp0 : (0 : ℚ) < 2 ^ (-1000 : ℤ) := by positivity
  have hc0 : (0 : ℚ) < 2 ^ (-7 : ℤ) := by positivity
  obtain ⟨e, he, e1, e2⟩ := Bin64.rnd_between (q := p.1 * c.1) (a := -1007) (b := 994) (by norm_num)
    (by norm_num) (by norm_num)
    (by
      have : (2 : ℚ) ^ (-1007 : ℤ) = 2 ^ (-1000 : ℤ) * 2 ^ (-7 : ℤ) := by
        rw [← zpow_add₀ (by norm_num)]; norm_num
      rw [this]
      exact mul_le_mul p1 c1 hc0.le (le_trans hp0.le p1))
    (by
      have : (2 : ℚ) ^ (994 : ℤ) = 2 ^ (1000 : ℤ) * 2 ^ (-6 : ℤ) := by
        rw [← zpow_add₀ (by norm_num)]; norm_num
      rw [this]
      exact mul_le_mul p2 c2 (le_trans hc0.le c1) (by positivity))
  have hx : (.fin size * .fin factor * Flt.ofRat (1 / 100) : F64) = .fin e := by
    have a1 : (.fin size * .fin factor : F64) = .fin p := hp
    have a2 : (Flt.ofRat (1 / 100) : F64) = .fin c := by
      show Bin64.rnd _ = _
      simpa using hc
    rw [a1, a2]
    exact he
  rw [hx]
  have hpos : (0 : ℚ) < e.1 := lt_of_lt_of_le (by positivity) e1
  constructor
  · show decide (1 / 2 ^ 1022 ≤ |e.1|) = true
    rw [decide_eq_true_iff, abs_of_pos hpos]
    refine le_trans ?_ e1
    have : (1 : ℚ) / 2 ^ 1022 = 2 ^ (-1022 : ℤ) := by
      rw [zpow_neg, one_div, ← zpow_natCast, Nat.cast_ofNat]
    rw [this]
    exact zpow_le_zpow_right₀ (by norm_num) (by norm_num)
  · have hz : (0 : F64) = .fin ⟨0, by simp, by simp⟩ := by
      show Bin64.rnd _ = _
      unfold Bin64.rnd
      simp
    rw [hz]
    show decide ((0 : ℚ) < e.1) = true
    exact decide_eq_true hpos

/-! ### Examples and refutations -/

/-- Builds and runs a restarter and tests whether it panics with `q`. -/
def tryRestartPanic {n : Nat} {F R : Type} [Flt F] (env : Env n F R) (kind : EvalKind)
    (src : ObjSource n F) (reuse : Bool) (o : RestartOptions n F) (q : Panic) : Bool :=
  match Restarter.new env o with
  | .error _ => false
  | .ok r => match r.runInternal env kind src reuse with
    | .panic p => decide (p = q)
    | _ => false

omit [FltLaws F] in
theorem of_tryRestartPanic {q : Panic} (h : tryRestartPanic env kind src reuse o q = true) :
    ∃ r, Restarter.new env o = .ok r ∧ r.runInternal env kind src reuse = .panic q := by
  unfold tryRestartPanic at h
  split at h
  · simp at h
  · rename_i r hr
    split at h
    · rename_i p hp
      exact ⟨r, hr, by rw [hp, of_decide_eq_true h]⟩
    · simp at h

open Witness in
/-- The generator of the examples meets its contract. -/
example : UniformOk Witness.rng := by
  intro lo hi g h
  refine ⟨?_, h⟩
  show Flt.le lo lo = true
  rw [le_iff] at h ⊢
  exact ⟨h.1, h.1, le_refl _⟩

open Witness in
/-- C58: a run in the range `[1, 5]`, given in the wrong order. -/
example : ∃ r res s,
    Restarter.new (wenv 2) { RestartOptions.new 2 5 1 (localStrategy 2) with defaultOptions := opts.toOptionsCore, maxGenerationsPerRun := some 1 } = .ok r ∧
    r.run (wenv 2) .seq (fun _ => sphere) = .ok (res, s) ∧
    s.records.map (fun x => x.options.initialMean 1) = [1, 1] := by
  obtain ⟨r, res, s, h0, h, hp⟩ := of_tryRestart (env := wenv 2) (kind := .seq)
    (src := .factory fun _ => sphere) (reuse := false)
    (o := { RestartOptions.new 2 5 1 (localStrategy 2) with defaultOptions := opts.toOptionsCore, maxGenerationsPerRun := some 1 })
    (p := fun _ s => decide (s.records.map (fun x => x.options.initialMean 1) = [1, 1]))
    (by decide +kernel)
  exact ⟨r, res, s, h0, h, of_decide_eq_true hp⟩

open Witness in
/-- A range with an infinite end is accepted by `build`, but running the restarter panics. The
hypothesis `RangeUsable` of `c61_no_panic_partial` cannot be dropped. -/
theorem c61_infinite_range : ∃ r,
    Restarter.new (wenv 2) (RestartOptions.new 2 (1 : F64) Flt.inf (localStrategy 2)) = .ok r ∧
    r.run (wenv 2) .seq (fun _ => sphere) = .panic .range :=
  of_tryRestartPanic (src := .factory fun _ => sphere) (reuse := false) (by decide +kernel)

open Witness in
/-- **C61, refutation.** `Local::new` accepts the factor `2^-1022`, and `build` accepts the range
`[0, 1]`, but running the restarter panics because the step size is not a normal number. -/
theorem c61_tiny_factor : ∃ l, Local.new (F := F64) 3 (some (Flt.ofRat (1 / 2 ^ 1022))) = .ok l ∧
    ∃ r, Restarter.new (wenv 2) (RestartOptions.new 2 0 1 (.local l)) = .ok r ∧
      r.run (wenv 2) .seq (fun _ => sphere) = .panic .unwrap :=
  ⟨⟨0, Flt.ofRat (1 / 2 ^ 1022), 3⟩,
    by rw [Local.new, if_neg (by decide +kernel)]; rfl,
    of_tryRestartPanic (src := .factory fun _ => sphere) (reuse := false) (by decide +kernel)⟩

open Witness in
/-- C53, C61: an increase factor of `2^63` is accepted, but the population size of the second run
overflows: the hypothesis `NoOverflow` cannot be dropped. -/
theorem c61_overflow : ∃ l, IPOP.new (2 ^ 63) = .ok l ∧
    ∃ r, Restarter.new (wenv 2) (restartOpts (.ipop l)) = .ok r ∧
      r.run (wenv 2) .seq (fun _ => sphere) = .panic .overflow :=
  ⟨⟨0, 1, 2 ^ 63⟩, rfl,
    of_tryRestartPanic (src := .factory fun _ => sphere) (reuse := false) (by decide +kernel)⟩

open Witness in
/-- The hypotheses of `c61_no_panic_simple` are met by `Local`. -/
example : (restartOpts (localStrategy 3)).strategy.Made ∧
    (∃ r, Restarter.new (wenv 2) (restartOpts (localStrategy 3)) = .ok r) ∧
    (restartOpts (localStrategy 3)).RangeUsable ∧
    (Flt.isNormal (restartOpts (localStrategy 3)).defaultOptions.cm = true ∧
      Flt.lt 0 (restartOpts (localStrategy 3)).defaultOptions.cm = true ∧
      Flt.le (restartOpts (localStrategy 3)).defaultOptions.cm 1 = true) ∧
    2 ≤ (restartOpts (localStrategy 3)).defaultOptions.populationSize ∧
    (restartOpts (localStrategy 3)).NoOverflow ∧
    (∀ step population, (restartOpts (localStrategy 3)).MayChoose (wenv 2) step population →
      (Flt.isNormal step = true ∧ Flt.lt 0 step = true) ∧ 2 ≤ population) ∧
    (restartOpts (localStrategy 3)).defaultOptions.constraints = none ∧
    2 ≤ (wenv 2).resampleFuel ∧ (restartOpts (localStrategy 3)).defaultOptions.plotOptions = none ∧
    (restartOpts (localStrategy 3)).defaultOptions.printGapEvals = none ∧
    (∀ l, ∃ v, (wenv 2).medianNaN l = .ok v) ∧
    (restartOpts (localStrategy 3)).maxGenerationsPerRun = some 2 ∧ max 1 2 ≤ (wenv 2).runFuel := by
  refine ⟨⟨3, none, localStrategy_made 3⟩, ?_, ⟨by decide +kernel, by decide +kernel, by decide +kernel⟩,
    ⟨by decide +kernel, by decide +kernel, by decide +kernel⟩, by decide +kernel, trivial, ?_, rfl,
    by decide, rfl, rfl, fun l => ⟨_, rfl⟩, rfl, by decide⟩
  · exact ((c58_build _ _).2.2).mpr ⟨by decide, by decide +kernel⟩
  · rintro step population ⟨rfl, rfl⟩
    exact ⟨⟨by decide +kernel, by decide +kernel⟩, by decide +kernel⟩

/-- The two defaults never fail. -/
theorem c61_defaults : (∃ s, IPOP.default = .ok s ∧ IPOP.new 2 = .ok s) ∧
    ∃ s : BIPOP F, BIPOP.default = .ok s ∧ BIPOP.new none none = .ok s :=
  ⟨⟨_, rfl, rfl⟩, _, rfl, rfl⟩

end Cmaes
