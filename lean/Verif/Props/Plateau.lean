import Verif.Props.NoPanic
import Verif.Props.TolX

/-!
# C84: a run whose values hardly differ ends by itself
-/

set_option linter.unusedSectionVars false

namespace Cmaes
open FltLaws
variable {n : Nat} {F R : Type} [Flt F] [FltLaws F] {env : Env n F R} {obj : Obj n F}
  {o : Options n F} {t u : List (NextCall n F)} {s : NextCall n F} {c c1 c' : CMAES n F R}
  {d : TerminationData n F} {kind : EvalKind} {lo hi tol : F}

/-- Differences of numbers between `lo` and `hi` are at most `hi - lo`. -/
theorem sub_lt_of_between {a b : F} (hlt : Flt.lt (hi - lo) tol = true)
    (ha : Flt.le lo a = true ∧ Flt.le a hi = true) (hb : Flt.le lo b = true ∧ Flt.le b hi = true) :
    Flt.lt (a - b) tol = true := by
  obtain ⟨n1, n2, h1⟩ := lt_iff.mp hlt
  obtain ⟨nlo, na, la⟩ := le_iff.mp ha.1
  obtain ⟨_, nhi, ah⟩ := le_iff.mp ha.2
  obtain ⟨_, nb, lb⟩ := le_iff.mp hb.1
  obtain ⟨_, _, bh⟩ := le_iff.mp hb.2
  rw [sub_def] at n1 h1
  have hT : val hi ≠ ⊤ := fun e => by
    rw [add_top nhi e n1] at h1
    exact not_top_lt h1
  have hB : val lo ≠ ⊥ := fun e => by
    have e' : val (-lo) = ⊤ := by rw [val_neg, e]; rfl
    rw [FltLaws.add_comm] at n1 h1
    rw [add_top (by rw [isNaN_neg]; exact nlo) e' n1] at h1
    exact not_top_lt h1
  have key : ∀ {x y : F}, Flt.isNaN x = false → Flt.isNaN y = false → val x ≤ val hi →
      val lo ≤ val x → val lo ≤ val y → val y ≤ val hi → Flt.isNaN (x + -y) = false := by
    intro x y hx hy x1 x2 y1 y2
    by_contra hc
    rcases isNaN_add.mp (by simpa using hc) with e | e | ⟨e, _⟩ | ⟨e, _⟩
    · rw [hx] at e; simp at e
    · rw [isNaN_neg, hy] at e; simp at e
    · rw [e] at x1; exact hT (top_le_iff.mp x1)
    · rw [e] at x2; exact hB (le_bot_iff.mp x2)
  have nab := key na nb ah la lb bh
  have nhb := key nhi nb le_rfl (la.trans ah) lb bh
  have e1 : val (a + -b) ≤ val (hi + -b) := add_le_add_right nab nhb ah
  have e2 : val (hi + -b) ≤ val (hi + -lo) := by
    rw [FltLaws.add_comm hi, FltLaws.add_comm hi]
    refine add_le_add_right ?_ ?_ ?_
    · rw [FltLaws.add_comm]; exact nhb
    · rw [FltLaws.add_comm]; exact n1
    · rw [val_neg, val_neg]; exact EReal.neg_le_neg_iff.mpr lb
  rw [sub_def]
  exact lt_iff.mpr ⟨nab, n2, (e1.trans e2).trans_lt h1⟩

private theorem forall₂_mem_right {α β : Type} {P : α → β → Prop} {l : List α} {m : List β}
    (h : List.Forall₂ P l m) {b : β} (hb : b ∈ m) : ∃ a ∈ l, P a b := by
  induction h with
  | nil => simp at hb
  | cons hp _ ih =>
    rcases List.mem_cons.mp hb with rfl | hb
    · exact ⟨_, by simp, hp⟩
    · obtain ⟨a, ha, hp⟩ := ih hb
      exact ⟨a, by simp [ha], hp⟩

/-- **C84, when it is reported.** If the values of the last `10 + ⌈30 n / λ⌉` generations all lie
between two numbers that differ by less than `tol_fun_hist`, the last of these generations reports
`TolFunHist`; if they differ by less than `tol_fun`, it reports `TolFun`. -/
theorem c84_reported (h : History.Of env obj o (t ++ [s]) c) (hs : s.Checked)
    (hn : 30 * n < 2 ^ 53) (hl : o.populationSize ≤ 2 ^ 53)
    (hcap : pastGenerations n o.populationSize ≤ historyCap)
    (hgen : pastGenerations n o.populationSize ≤ c.generation)
    (hv : ∀ x ∈ (completedNewest (t ++ [s])).take (pastGenerations n o.populationSize),
      ∀ v ∈ x.values, Flt.le lo v = true ∧ Flt.le v hi = true) :
    (Flt.lt (hi - lo) o.tolFunHist = true → .tolFunHist ∈ s.reasons) ∧
    (Flt.lt (hi - lo) o.tolFun = true → .tolFun ∈ s.reasons) := by
  have hcount := (c06_generations h).2.1
  rcases tolFun_core h hs hn hl with ⟨vs, d, d', hd, h1, h2, _⟩ | ⟨hno, _⟩
  · have hpos : 0 < pastGenerations n o.populationSize := by unfold pastGenerations; omega
    have hbetween : ∀ v ∈ vs, Flt.le lo v = true ∧ Flt.le v hi = true := by
      obtain ⟨_, _, hf⟩ := hd.window
      intro v hvs
      obtain ⟨x, hx, hb⟩ := forall₂_mem_right hf hvs
      obtain ⟨⟨e, he, rfl⟩, _⟩ := hb
      exact hv x hx _ (List.mem_map.mpr ⟨e, he, rfl⟩)
    have hcur : ∀ v ∈ s.values, Flt.le lo v = true ∧ Flt.le v hi = true := by
      refine hv s ?_
      have : completedNewest (t ++ [s]) = s :: completedNewest t := by
        simp [completedNewest, List.filter_append, hs.1]
      rw [this]
      obtain ⟨k, hk⟩ := Nat.exists_eq_succ_of_ne_zero hpos.ne'
      rw [hk, List.take_succ_cons]
      simp
    have hspread : ∀ {l : List F} {e tol : F}, IsSpread l e →
        (∀ v ∈ l, Flt.le lo v = true ∧ Flt.le v hi = true) →
        Flt.lt (hi - lo) tol = true → Flt.lt e tol = true := by
      rintro l e tol ⟨mx, hmx, mn, hmn, _, rfl⟩ hl hlt
      exact sub_lt_of_between hlt (hl mx hmx) (hl mn hmn)
    exact ⟨fun hlt => h1.mpr (hspread hd.spread hbetween hlt),
      fun hlt => h2.mpr ⟨hspread hd.spread hbetween hlt, hspread hd.current hcur hlt⟩⟩
  · exfalso
    have hlen := (c27_length h).1
    exact hno _ (recentBest_take h (by omega))

/-- Numbers between `lo` and `hi` are finite if `hi - lo` is below something. -/
theorem isInf_of_between {a : F} (hlt : Flt.lt (hi - lo) tol = true)
    (ha : Flt.le lo a = true ∧ Flt.le a hi = true) : Flt.isInf a = false := by
  obtain ⟨n1, n2, h1⟩ := lt_iff.mp hlt
  obtain ⟨nlo, na, la⟩ := le_iff.mp ha.1
  obtain ⟨_, nhi, ah⟩ := le_iff.mp ha.2
  rw [sub_def] at n1 h1
  by_contra hc
  rcases (isInf_iff.mp (by simpa using hc)).2 with e | e
  · rw [e] at ah
    rw [add_top nhi (top_le_iff.mp ah) n1] at h1
    exact not_top_lt h1
  · rw [e] at la
    have e' : val (-lo) = ⊤ := by rw [val_neg, le_bot_iff.mp la]; rfl
    rw [FltLaws.add_comm] at n1 h1
    rw [add_top (by rw [isNaN_neg]; exact nlo) e' n1] at h1
    exact not_top_lt h1

/-- The objective of `c84_run`: its values lie between two numbers that differ by less than
`tol_fun_hist`, and the history can hold the generations that criterion looks at. -/
structure Plateau (obj : Obj n F) (o : Options n F) (lo hi : F) : Prop where
  values : ∀ log x, Flt.le lo (obj.f log x) = true ∧ Flt.le (obj.f log x) hi = true
  near : Flt.lt (hi - lo) o.tolFunHist = true
  dim : 30 * n < 2 ^ 53
  population : o.populationSize ≤ 2 ^ 53
  kept : pastGenerations n o.populationSize ≤ historyCap

/-- On a plateau every completed generation from the `10 + ⌈30 n / λ⌉`-th on reports
`TolFunHist`. -/
theorem c84_plateau (hp : Plateau obj o lo hi) (h : History.Of env obj o (t ++ [s]) c)
    (hs : s.Checked) (hg : pastGenerations n o.populationSize ≤ c.generation) :
    .tolFunHist ∈ s.reasons := by
  refine (c84_reported (lo := lo) (hi := hi) h hs hp.dim hp.population hp.kept hg ?_).1 hp.near
  intro x hx v hv
  obtain ⟨e, he, rfl⟩ := List.mem_map.mp hv
  obtain ⟨gs, i, _⟩ := fresh_inv h
  refine i.faithful.values (P := fun v => Flt.le lo v = true ∧ Flt.le v hi = true) hp.values e ?_
  exact List.mem_flatMap.mpr ⟨x, (completedNewest_mem (List.mem_of_mem_take hx)).1, he⟩

/-- A state reached through calls that returned `None` is below the bound. -/
theorem plateau_below (hp : Plateau obj o lo hi) (h : History.Of env obj o t c)
    (he : Exec env c u c1) (hu : Unfinished kind u) (hne : u ≠ []) :
    c1.generation < pastGenerations n o.populationSize := by
  rcases List.eq_nil_or_concat u with rfl | ⟨u', s, rfl⟩
  · exact absurd rfl hne
  rw [List.concat_eq_append] at he hu
  have hs := (hu s (by simp)).1
  have hof := h.trans he
  rw [← List.append_assoc] at hof
  by_contra hc
  have := c84_plateau hp hof (checked_of_none hs) (by omega)
  simp [NextCall.reasons, hs] at this

/-- **C84, the bound.** A run on a plateau, started in any reachable state, makes at most
`max(1, 10 + ⌈30 n / λ⌉ - generation())` calls of `next`. If its last call completes the
`10 + ⌈30 n / λ⌉`-th generation or a later one, it reports `TolFunHist`. -/
theorem c84_run (hp : Plateau obj o lo hi) (h : History.Of env obj o t c)
    (hrun : c.run env kind = .ok (c', d)) :
    (∃ u, Exec env c u c' ∧ u.length ≤ max 1 (pastGenerations n o.populationSize - c.generation)) ∧
      c'.generation ≤ max (c.generation + 1) (pastGenerations n o.populationSize) ∧
      (c.generation < c'.generation → pastGenerations n o.populationSize ≤ c'.generation →
        .tolFunHist ∈ d.reasons) := by
  obtain ⟨u, s, he, hk, hd, hu⟩ := run_ok hrun
  obtain ⟨c1, h1, h2⟩ := he.split
  obtain ⟨hcg, _⟩ := unfinished_counters h h1 hu
  have hof : History.Of env obj o ((t ++ u) ++ [s]) c' := by
    rw [List.append_assoc]; exact h.trans he
  obtain ⟨hone, _⟩ := one_more hof (h.trans h1)
  have hb := plateau_below hp h h1 hu
  refine ⟨⟨_, he, ?_⟩, ?_, ?_⟩
  · rw [List.length_append]
    by_cases hne : u = []
    · subst hne; simp
    · have := hb hne
      simp only [List.length_cons, List.length_nil]
      omega
  · by_cases hne : u = []
    · subst hne
      simp only [List.length_nil, Nat.add_zero] at hcg
      omega
    · have := hb hne
      omega
  · intro hlt hge
    have hc : s.Checked := by
      rcases hone with ⟨_, hch⟩ | hone
      · exact hch
      · exfalso
        by_cases hne : u = []
        · subst hne
          simp only [List.length_nil, Nat.add_zero] at hcg
          omega
        · have := hb hne
          omega
    have := c84_plateau hp hof hc hge
    unfold NextCall.reasons at this
    rw [hd] at this
    exact this

/-- **C84, the run ends.** On a plateau `run` returns from every reachable state, without
`max_generations` or any other limit: it neither panics nor goes on for ever. -/
theorem c84_returns (hp : Plateau obj o lo hi) (h : History.Of env obj o t c)
    (he : SamplingEnds env o)
    (hk : ∀ k, o.constraints = some k → ∀ x : Vec n F, ∃ b, k (List.ofFn x) = .ok b)
    (hc : c.generation < 2 ^ 30 - 1)
    (hplot : ∀ po, o.plotOptions = some po → c.functionEvals +
      o.populationSize * pastGenerations n o.populationSize + po.minGapEvals < 2 ^ 64)
    (hprint : ∀ gap, o.printGapEvals = some gap → c.functionEvals +
      o.populationSize * pastGenerations n o.populationSize + gap < 2 ^ 64)
    (hf : max 1 (pastGenerations n o.populationSize - c.generation) ≤ env.runFuel)
    (kind : EvalKind) : ∃ c' d, c.run env kind = .ok (c', d) := by
  have hcap : pastGenerations n o.populationSize ≤ 20000 := hp.kept
  have key : ∀ u c1, Exec env c u c1 → Unfinished kind u →
      ∃ c' r, c1.next env kind = .ok (c', r) := by
    intro u c1 h1 hu
    obtain ⟨e1, e2⟩ := unfinished_counters h h1 hu
    have hb := plateau_below hp h h1 hu
    have hlen : u.length ≤ pastGenerations n o.populationSize := by
      by_cases hne : u = []
      · subst hne; simp
      · have := hb hne
        omega
    have hmul : o.populationSize * u.length ≤
        o.populationSize * pastGenerations n o.populationSize := Nat.mul_le_mul_left _ hlen
    refine c26_returns (h.trans h1) ⟨hk, ?_, ?_, ?_,
      .inr fun log x => isInf_of_between hp.near (hp.values log x)⟩ he kind
    · by_cases hne : u = []
      · subst hne
        simp only [List.length_nil, Nat.add_zero] at e1
        omega
      · have := hb hne
        omega
    · intro po hpo
      have := hplot po hpo
      omega
    · intro gap hgap
      have := hprint gap hgap
      omega
  cases hr : c.run env kind with
  | ok x => exact ⟨x.1, x.2, rfl⟩
  | panic p =>
    obtain ⟨u, c1, h1, hu, h2⟩ := run_panic hr
    obtain ⟨c', r, h3⟩ := key u c1 h1 hu
    rw [h3] at h2
    simp at h2
  | diverge =>
    obtain ⟨u, c1, h1, hu, h2 | h2⟩ := run_diverge hr
    · obtain ⟨c', r, h3⟩ := key u c1 h1 hu
      rw [h3] at h2
      simp at h2
    · exfalso
      have hne : u ≠ [] := by rintro rfl; simp at h2; omega
      have := plateau_below hp h h1 hu hne
      obtain ⟨hcg, _⟩ := unfinished_counters h h1 hu
      omega

/-- All numbers in the window of `TolFun*` and `TolStagnation` are the value of a constant
objective. -/
theorem recentBest_constant {v : F} {k : Nat} {vs : List F} (hv : ∀ log x, obj.f log x = v)
    (h : History.Of env obj o t c) (hw : RecentBest o.mode t k vs) : vs = List.replicate k v := by
  obtain ⟨hl, _, hf⟩ := hw
  refine List.eq_replicate_iff.mpr ⟨hl, fun b hb => ?_⟩
  obtain ⟨x, hx, ⟨e, he, rfl⟩, _⟩ := forall₂_mem_right hf hb
  obtain ⟨gs, i, _⟩ := fresh_inv h
  refine i.faithful.values (P := fun w => w = v) hv e ?_
  exact List.mem_flatMap.mpr ⟨x, (completedNewest_mem (List.mem_of_mem_take hx)).1, he⟩

/-- **C84, no other criterion.** With a constant objective `TolStagnation` is never reported. -/
theorem c84_constant {v : F} (hv : ∀ log x, obj.f log x = v)
    (h : History.Of env obj o (t ++ [s]) c) : .tolStagnation ∉ s.reasons := by
  intro hr
  obtain ⟨⟨vs, hw, old, new, h1, h2, hb⟩, _⟩ := c23_necessary h hr
  rw [recentBest_constant hv h hw] at h1 h2
  rw [List.length_replicate] at h1 h2
  rw [List.drop_replicate] at h1
  rw [List.take_replicate] at h2
  have e : ∀ k : Nat, k - (k - 3 * k / 10) = min (3 * k / 10) k := by omega
  rw [e] at h1
  have hi : Flt.lt new new ≠ true := fun h => lt_irrefl _ (lt_iff.mp h).2.2
  rw [better_iff, ← Mode.isBetter_iff, isBetter_congr_num (IsMedian.unique rfl h1 h2) rfl] at hb
  cases hm : o.mode <;> rw [hm] at hb <;> exact hi hb

/-- **C84, infinite plateaus.** The plateau must be finite: if the objective always returns the same
infinity, `TolFun`, `TolFunHist`, `TolFunRel` and `TolStagnation` are never reported, however long
the run. -/
theorem c84_infinite {v : F} (hv : ∀ log x, obj.f log x = v) (hi : Flt.isInf v = true)
    (h : History.Of env obj o (t ++ [s]) c) (hn : 30 * n < 2 ^ 53)
    (hl : o.populationSize ≤ 2 ^ 53) :
    .tolFunHist ∉ s.reasons ∧ .tolFun ∉ s.reasons ∧ .tolFunRel ∉ s.reasons ∧
      .tolStagnation ∉ s.reasons := by
  have key : ¬ (.tolFunHist ∈ s.reasons ∨ .tolFun ∈ s.reasons ∨ .tolFunRel ∈ s.reasons) := by
    intro hr
    obtain ⟨_, vs, hw, hf⟩ := c22_window h hn hl hr
    have hpos : pastGenerations n o.populationSize ≠ 0 := by unfold pastGenerations; omega
    have := hf v (by rw [recentBest_constant hv h hw]; exact List.mem_replicate.mpr ⟨hpos, rfl⟩)
    rw [hi] at this
    simp at this
  exact ⟨fun h => key (.inl h), fun h => key (.inr (.inl h)), fun h => key (.inr (.inr h)),
    c84_constant hv h⟩

/-! ### The hypotheses are met -/

open Witness

/-- A plateau with small steps: the values alternate between 1 and `1 + 2^-50`. -/
def steps : Obj 1 F64 :=
  { f := fun log _ => if log.length % 2 = 0 then 1 else Flt.ofRat (1 + 1 / 2 ^ 50), log := [] }

/-- Options without any limit on the number of generations or evaluations. -/
def plateauOpts : Options 1 F64 := { opts1 with populationSize := 6 }

/-- An environment in which all eigenvalues are one. -/
def plateauEnv : Env 1 F64 Nat :=
  { drawing [1/8, -1/2, 1/8, 1/8, 1/3] with eigen := fun _ => some (Mat.one, fun _ => 1) }

theorem steps_plateau : Plateau steps plateauOpts 1 (Flt.ofRat (1 + 1 / 2 ^ 50)) where
  values log x := by
    show Flt.le (1 : F64) (if log.length % 2 = 0 then 1 else Flt.ofRat (1 + 1 / 2 ^ 50)) = true ∧ _
    show _ ∧ Flt.le (if log.length % 2 = 0 then (1 : F64) else Flt.ofRat (1 + 1 / 2 ^ 50)) _ = true
    split
    · decide +kernel
    · decide +kernel
  near := by decide +kernel
  dim := by norm_num
  population := by decide
  kept := by
    have : plateauOpts.populationSize = 6 := rfl
    rw [this]
    norm_num [pastGenerations, historyCap]

/-- The hypotheses of `c84_run` and `c84_returns` are met by a fresh `CMAES` on this plateau. -/
example : ∃ c0, History.Of plateauEnv steps plateauOpts [] c0 ∧
    ∃ c' d, c0.run plateauEnv .par = .ok (c', d) := by
  have hv : CMAES.validate plateauOpts = none := by decide +kernel
  have h : History.Of plateauEnv steps plateauOpts []
      (CMAES.create plateauEnv World.init steps plateauOpts) :=
    ⟨World.init, _, by simp only [CMAES.new, hv], .refl _⟩
  have e2 : (CMAES.create plateauEnv World.init steps
    plateauOpts).generation = 0 := rfl
  have e3 : plateauOpts.populationSize = 6 := rfl
  refine ⟨_, h, c84_returns steps_plateau h (.inl ⟨rfl, by decide⟩) (by intro k hk; cases hk)
    (by rw [e2]; decide) (by intro po hpo; cases hpo) (by intro gap hgap; cases hgap) ?_ .par⟩
  rw [e2, e3]
  have : pastGenerations 1 6 = 15 := by norm_num [pastGenerations]
  rw [this]
  decide

/-- The hypotheses of `c84_infinite`: twenty generations that are all infinite and report nothing. -/
example : ∃ (t : _) (s : NextCall 1 F64) (c : CMAES 1 F64 Nat),
    History.Of plateauEnv { f := fun _ _ => Flt.inf, log := [] } plateauOpts (t ++ [s]) c ∧
    t.length = 19 ∧ s.Checked ∧ s.reasons = [] := by
  have key := exists_history (env := plateauEnv) (obj := { f := fun _ _ => Flt.inf, log := [] })
    (o := plateauOpts) (List.replicate 20 .seq)
    (fun _ t => decide (t.length = 20 ∧ ∀ s ∈ t.drop 19, s.Checked ∧ s.reasons = []))
    (by decide +kernel) (by decide +kernel)
  obtain ⟨t, c, h, hp⟩ := key
  obtain ⟨h1, h3⟩ := of_decide_eq_true hp
  rcases List.eq_nil_or_concat t with rfl | ⟨u, s, rfl⟩
  · simp at h1
  · rw [List.concat_eq_append] at *
    have hl : u.length = 19 := by simpa using h1
    rw [← hl, List.drop_left] at h3
    exact ⟨u, s, c, h, hl, h3 s (by simp)⟩

/-- A generation that reports `TolFunHist` on this plateau, the fifteenth; the fourteen before it
report nothing. -/
example : ∃ (t : _) (s : NextCall 1 F64) (c : CMAES 1 F64 Nat),
    History.Of plateauEnv steps plateauOpts (t ++ [s]) c ∧
    t.length = 14 ∧ (∀ x ∈ t, x.result = none) ∧ s.Checked ∧ .tolFunHist ∈ s.reasons := by
  have key := exists_history (env := plateauEnv) (obj := steps)
    (o := plateauOpts) (List.replicate 15 .seq)
    (fun _ t => decide (t.length = 15 ∧ (∀ x ∈ t.take 14, x.result.isNone = true) ∧
      ∀ s ∈ t.drop 14, s.Checked ∧ .tolFunHist ∈ s.reasons)) (by decide +kernel) (by decide +kernel)
  obtain ⟨t, c, h, hp⟩ := key
  obtain ⟨h1, h2, h3⟩ := of_decide_eq_true hp
  rcases List.eq_nil_or_concat t with rfl | ⟨u, s, rfl⟩
  · simp at h1
  · rw [List.concat_eq_append] at *
    have hl : u.length = 14 := by simpa using h1
    rw [← hl, List.take_left] at h2
    rw [← hl, List.drop_left] at h3
    exact ⟨u, s, c, h, hl, fun x hx => by simpa using h2 x hx, h3 s (by simp)⟩

end Cmaes
