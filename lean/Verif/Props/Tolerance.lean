import Verif.Props.History

/-!
# C22 - C25: the tolerance criteria
-/

set_option linter.unusedSectionVars false

namespace Cmaes
variable {n : Nat} {F R : Type} [Flt F] [FltLaws F]
open FltLaws
variable {env : Env n F R} {obj : Obj n F} {o : Options n F} {t u : List (NextCall n F)}
  {c c' c1 : CMAES n F R} {kind : EvalKind} {s : NextCall n F} {d : TerminationData n F}

/-! ### The windows of the criteria -/

theorem IsBest.unique {mode : Mode} {calls : List (Vec n F × F)} {v v' : F}
    (hn : ∀ e ∈ calls, Flt.isNaN e.2 = false) (h : IsBest mode calls v)
    (h' : IsBest mode calls v') : num v = num v' := by
  obtain ⟨⟨e, he, rfl⟩, h2⟩ := h
  obtain ⟨⟨e', he', rfl⟩, h2'⟩ := h'
  have a := h2 e' he'
  have b := h2' e he
  rw [better_iff] at a b
  have a' : mode.key e.2 ≤ mode.key e'.2 := not_lt.mp fun h => a ⟨hn _ he', hn _ he, h⟩
  have b' : mode.key e'.2 ≤ mode.key e.2 := not_lt.mp fun h => b ⟨hn _ he, hn _ he', h⟩
  exact num_eq (hn _ he) (hn _ he') (Mode.key_val (le_antisymm a' b'))

theorem forall₂_unique {α : Type} {P : α → F → Prop} {l : List α} {vs vs' : List F}
    (hu : ∀ a ∈ l, ∀ b b', P a b → P a b' → num b = num b') (h : List.Forall₂ P l vs)
    (h' : List.Forall₂ P l vs') : vs.map num = vs'.map num := by
  induction h generalizing vs' with
  | nil => cases h'; rfl
  | cons h1 h2 ih =>
    cases h' with
    | cons h1' h2' =>
      rw [List.map_cons, List.map_cons, hu _ (by simp) _ _ h1 h1',
        ih (fun a ha => hu a (by simp [ha])) h2']

theorem completedNewest_mem {t : List (NextCall n F)} {s : NextCall n F}
    (h : s ∈ completedNewest t) : s ∈ t ∧ ¬ s.Failed := by
  unfold completedNewest at h
  simpa using h

theorem completed_noNaN (h : History.Of env obj o t c) {s : NextCall n F}
    (hs : s ∈ completedNewest t) : ∀ e ∈ s.calls, Flt.isNaN e.2 = false := by
  obtain ⟨gs, i, _⟩ := fresh_inv h
  obtain ⟨h1, h2⟩ := completedNewest_mem hs
  intro e he
  refine i.call_noNaN ?_
  unfold completedCalls
  rw [List.mem_flatMap]
  exact ⟨s, by simp [h1, h2], he⟩

/-- The best values of the most recent generations are what the history holds. -/
theorem recentBest_take (h : History.Of env obj o t c) {k : Nat}
    (hk : k ≤ c.history.bestValues.length) :
    RecentBest o.mode t k (c.history.bestValues.take k) := by
  obtain ⟨h1, _⟩ := c27_history h
  obtain ⟨hl, _⟩ := c27_length h
  have hcap : k ≤ historyCap := by rw [hl] at hk; omega
  refine ⟨by simpa using hk, hcap, ?_⟩
  have h2 := List.forall₂_take k h1
  rwa [List.take_take, Nat.min_eq_left hcap] at h2

/-- Conversely, up to the sign of zeros. -/
theorem recentBest_nums (h : History.Of env obj o t c) {k : Nat} {vs : List F}
    (hv : RecentBest o.mode t k vs) :
    k ≤ c.history.bestValues.length ∧ vs.map num = (c.history.bestValues.take k).map num := by
  obtain ⟨h1, _⟩ := c27_history h
  obtain ⟨hl, _⟩ := c27_length h
  have hlen : (completedNewest t).length = (t.filter fun s => ¬ s.Failed).length := by
    simp [completedNewest]
  obtain ⟨e1, e2, e3⟩ := hv
  have e4 := e3.length_eq
  rw [List.length_take, e1] at e4
  have hk : k ≤ c.history.bestValues.length := by
    rw [hl, ← hlen]; omega
  refine ⟨hk, ?_⟩
  have h2 := List.forall₂_take k h1
  rw [List.take_take, Nat.min_eq_left e2] at h2
  refine forall₂_unique (fun a ha b b' p q => ?_) e3 h2
  exact p.unique (completed_noNaN h (List.mem_of_mem_take ha)) q

/-- Likewise for the medians. -/
theorem recentMedians_take (h : History.Of env obj o t c) {k : Nat}
    (hk : k ≤ c.history.medianValues.length) :
    RecentMedians t k (c.history.medianValues.take k) := by
  obtain ⟨_, h1⟩ := c27_history h
  obtain ⟨_, hl⟩ := c27_length h
  have hcap : k ≤ historyCap := by rw [hl] at hk; omega
  refine ⟨by simpa using hk, hcap, ?_⟩
  have h2 := List.forall₂_take k h1
  rwa [List.take_take, Nat.min_eq_left hcap] at h2

/-- Conversely, up to the sign of zeros. -/
theorem recentMedians_nums (h : History.Of env obj o t c) {k : Nat} {vs : List F}
    (hv : RecentMedians t k vs) :
    k ≤ c.history.medianValues.length ∧ vs.map num = (c.history.medianValues.take k).map num := by
  obtain ⟨_, h1⟩ := c27_history h
  obtain ⟨_, hl⟩ := c27_length h
  have hlen : (completedNewest t).length = (t.filter fun s => ¬ s.Failed).length := by
    simp [completedNewest]
  obtain ⟨e1, e2, e3⟩ := hv
  have e4 := e3.length_eq
  rw [List.length_take, e1] at e4
  have hk : k ≤ c.history.medianValues.length := by
    rw [hl, ← hlen]; omega
  refine ⟨hk, ?_⟩
  have h2 := List.forall₂_take k h1
  rw [List.take_take, Nat.min_eq_left e2] at h2
  exact forall₂_unique (P := fun (s : NextCall n F) v => IsMedian s.values v)
    (fun a ha b b' p q => IsMedian.unique rfl p q) e3 h2

theorem bestValues_noNaN' (h : History.Of env obj o t c) :
    ∀ v ∈ c.history.bestValues, Flt.isNaN v = false := by
  obtain ⟨h1, _⟩ := c27_history h
  have key : ∀ {l : List (NextCall n F)} {vs : List F},
      List.Forall₂ (fun s v => IsBest o.mode s.calls v) l vs →
      (∀ s ∈ l, ∀ e ∈ s.calls, Flt.isNaN e.2 = false) → ∀ v ∈ vs, Flt.isNaN v = false := by
    intro l vs hf
    induction hf with
    | nil => simp
    | cons a b ih =>
      intro hn v hv
      rcases List.mem_cons.mp hv with rfl | hv
      · obtain ⟨⟨e, he, rfl⟩, _⟩ := a
        exact hn _ (by simp) e he
      · exact ih (fun s hs => hn s (by simp [hs])) v hv
  exact key h1 fun s hs => completed_noNaN h (List.mem_of_mem_take hs)

theorem IsSpread.congr {l l' : List F} {d : F} (he : ∀ x, x ∈ l ↔ x ∈ l') (h : IsSpread l d) :
    IsSpread l' d := by
  obtain ⟨mx, h1, mn, h2, h3, rfl⟩ := h
  exact ⟨mx, (he _).mp h1, mn, (he _).mp h2, fun x hx => h3 x ((he _).mpr hx), rfl⟩

/-- The number of generations is computed exactly. -/
theorem pastGenerationsA_eq (hn : 30 * n < 2 ^ 53) {lambda : Nat} (hl : 0 < lambda)
    (hl' : lambda ≤ 2 ^ 53) : pastGenerationsA F n lambda = pastGenerations n lambda := by
  unfold pastGenerationsA pastGenerations
  have e : ((30 : F) * Flt.ofNat n : F) = Flt.ofRat ((30 * n : ℕ) : ℚ) := by
    exact mul_ofNat (F := F) 30 n (by norm_num) (by omega) (by omega)
  rw [e]
  have := toUsize_ceil_div (F := F) (30 * n) lambda hn hl hl'
  unfold Flt.ofNat
  rw [this]
  push_cast
  rfl

/-- What the three `TolFun*` criteria look at. -/
structure TolFunData (o : Options n F) (t : List (NextCall n F)) (s : NextCall n F)
    (vs : List F) (d d' : F) : Prop where
  window : RecentBest o.mode (t ++ [s]) (pastGenerations n o.populationSize) vs
  spread : IsSpread vs d
  current : IsSpread s.values d'

theorem IsFirstMedian.unique {m m' : F} (h : IsFirstMedian t m) (h' : IsFirstMedian t m') :
    num m = num m' := by
  obtain ⟨s, hs, hm⟩ := h
  obtain ⟨s', hs', hm'⟩ := h'
  rw [hs] at hs'
  injection hs' with hs'
  subst hs'
  exact IsMedian.unique rfl hm hm'

theorem IsBestMedian.unique {mode : Mode} {m m' : F} (h : IsBestMedian mode t m)
    (h' : IsBestMedian mode t m') : num m = num m' := by
  obtain ⟨⟨s, hs, hf, hm⟩, h2⟩ := h
  obtain ⟨⟨s', hs', hf', hm'⟩, h2'⟩ := h'
  obtain ⟨a1, a2⟩ := h2 s' hs' hf' m' hm'
  obtain ⟨b1, b2⟩ := h2' s hs hf m hm
  cases hn : Flt.isNaN m with
  | true => rw [isNaN_eq hn, isNaN_eq (a2 hn)]
  | false =>
    have hn' : Flt.isNaN m' = false := by
      by_contra hc
      rw [b2 (by simpa using hc)] at hn
      simp at hn
    rw [better_iff] at a1 b1
    have a' : mode.key m ≤ mode.key m' := not_lt.mp fun h => a1 ⟨hn', hn, h⟩
    have b' : mode.key m' ≤ mode.key m := not_lt.mp fun h => b1 ⟨hn, hn', h⟩
    exact num_eq hn hn' (Mode.key_val (le_antisymm a' b'))

/-- The `TolFun*` part of a completed generation. -/
theorem tolFun_core (h : History.Of env obj o (t ++ [s]) c) (hs : s.Checked)
    (hn : 30 * n < 2 ^ 53) (hl : o.populationSize ≤ 2 ^ 53) :
    (∃ vs d d', TolFunData o t s vs d d' ∧
      (.tolFunHist ∈ s.reasons ↔ Flt.lt d o.tolFunHist = true) ∧
      (.tolFun ∈ s.reasons ↔ Flt.lt d o.tolFun = true ∧ Flt.lt d' o.tolFun = true) ∧
      (.tolFunRel ∈ s.reasons ↔ ∃ a b, IsFirstMedian (t ++ [s]) a ∧
        IsBestMedian o.mode (t ++ [s]) b ∧ Flt.lt d (o.tolFunRel * Flt.abs (a - b)) = true ∧
        Flt.lt d' (o.tolFunRel * Flt.abs (a - b)) = true)) ∨
    ((∀ vs, ¬ RecentBest o.mode (t ++ [s]) (pastGenerations n o.populationSize) vs) ∧
      .tolFunHist ∉ s.reasons ∧ .tolFun ∉ s.reasons ∧ .tolFunRel ∉ s.reasons) := by
  obtain ⟨c1, ps, inds, el, h1, hsam, hp, hg, hev, _, _, _, _, _, hch, _⟩ := checked_next h hs
  obtain ⟨gs, i, _⟩ := fresh_inv h
  have hpop := valid_population i.valid
  obtain ⟨tf, htf, m1, m2, m3⟩ := (check_mem hch).2.2.2.2.1
  rw [m1, m2, m3]
  have hpast : pastGenerationsA F (checkInput c el inds).parameters.dim
      (checkInput c el inds).parameters.lambda = pastGenerations n o.populationSize := by
    simp only [checkInput, hp]
    exact pastGenerationsA_eq (lambda := o.populationSize) hn (by omega) hl
  unfold TerminationCheck.tolFun at htf
  simp only [hpast] at htf
  have hhist : (checkInput c el inds).history = c.history := rfl
  have hinds : (checkInput c el inds).individuals = inds := rfl
  have htp : (checkInput c el inds).parameters.termination =
      (Parameters.fromOptions o (o.seed.getD env.randomSeed)).termination := by
    simp only [checkInput, hp]
  rw [hhist, hinds, htp] at htf
  by_cases hle : pastGenerations n o.populationSize ≤ c.history.bestValues.length
  · left
    rw [if_pos hle] at htf
    simp only [Outcome.bind_eq_ok] at htf
    obtain ⟨d, hd, d', hd', htf⟩ := htf
    have hd := getElem?_of_unwrap hd
    have hd' := getElem?_of_unwrap hd'
    have hvals : ∀ x, x ∈ (inds.map fun p => p.value) ↔ x ∈ s.values := by
      intro x
      unfold NextCall.values
      have := (hsam.callsPerm.map fun e : Vec n F × F => e.2).mem_iff (a := x)
      rw [this, List.map_map]
      rfl
    refine ⟨c.history.bestValues.take (pastGenerations n o.populationSize), d, d',
      ⟨recentBest_take h hle, ?_, ?_⟩, ?_⟩
    · exact range_spec (fun x hx => bestValues_noNaN' h x (List.mem_of_mem_take hx)) hd
    · refine IsSpread.congr hvals (range_spec (fun x hx => ?_) hd')
      obtain ⟨p, hp, rfl⟩ := List.mem_map.mp hx
      exact hsam.inds_noNaN p hp
    obtain ⟨q1, q2, q3, q4⟩ := c29_medians h
    have hex : ∃ s' ∈ t ++ [s], ¬ s'.Failed := ⟨s, by simp, hs.1⟩
    obtain ⟨a, ha⟩ := Option.isSome_iff_exists.mp (q3.mpr hex)
    obtain ⟨b, hb⟩ := Option.isSome_iff_exists.mp (q4.mpr hex)
    simp only [ha, hb, Outcome.ok.injEq] at htf
    subst htf
    have f1 : (Parameters.fromOptions o (o.seed.getD env.randomSeed)).termination.tolFunHist =
      o.tolFunHist := rfl
    have f2 : (Parameters.fromOptions o (o.seed.getD env.randomSeed)).termination.tolFun =
      o.tolFun := rfl
    have f3 : (Parameters.fromOptions o (o.seed.getD env.randomSeed)).termination.tolFunRel =
      o.tolFunRel := rfl
    simp only [List.mem_append, mem_reason, f1, f2, f3, Bool.and_eq_true]
    refine ⟨by simp, by simp, ?_⟩
    constructor
    · intro hr
      have hr : Flt.lt d (o.tolFunRel * Flt.abs (a - b)) = true ∧
        Flt.lt d' (o.tolFunRel * Flt.abs (a - b)) = true := by simpa using hr
      exact ⟨a, b, q1 a ha, q2 b hb, hr⟩
    · rintro ⟨a', b', ha', hb', hr⟩
      rw [abs_congr_num (sub_congr_num (ha'.unique (q1 a ha)) (hb'.unique (q2 b hb)))] at hr
      simpa using hr
  · right
    rw [if_neg hle] at htf
    injection htf with htf
    subst htf
    refine ⟨fun vs hv => hle (recentBest_nums h hv).1, by simp, by simp, by simp⟩

theorem RecentBest.unique (h : History.Of env obj o t c) {k : Nat} {vs vs' : List F}
    (h1 : RecentBest o.mode t k vs) (h2 : RecentBest o.mode t k vs') :
    vs.map num = vs'.map num := by
  rw [(recentBest_nums h h1).2, (recentBest_nums h h2).2]

/-! ### C22 -/

/-- **C22, `TolFunHist`.** Reported exactly if the best values of the `10 + ⌈30 n / λ⌉` most recent
generations exist and are kept, and their spread is below the tolerance. -/
theorem c22_tolFunHist (h : History.Of env obj o (t ++ [s]) c) (hs : s.Checked)
    (hn : 30 * n < 2 ^ 53) (hl : o.populationSize ≤ 2 ^ 53) :
    .tolFunHist ∈ s.reasons ↔ ∃ vs d,
      RecentBest o.mode (t ++ [s]) (pastGenerations n o.populationSize) vs ∧ IsSpread vs d ∧
      Flt.lt d o.tolFunHist = true := by
  rcases tolFun_core h hs hn hl with ⟨vs, d, d', hd, h1, _, _⟩ | ⟨hno, h1, _, _⟩
  · rw [h1]
    refine ⟨fun hlt => ⟨vs, d, hd.window, hd.spread, hlt⟩, ?_⟩
    rintro ⟨vs', d2, k1, k2, k3⟩
    rw [lt_congr_num (IsSpread.unique (RecentBest.unique h hd.window k1) hd.spread k2) rfl]
    exact k3
  · exact ⟨fun hr => absurd hr h1, fun ⟨vs, _, hv, _⟩ => absurd hv (hno vs)⟩

/-- **C22, `TolFun`.** As `TolFunHist`, and the spread of the current generation is below the
tolerance as well. -/
theorem c22_tolFun (h : History.Of env obj o (t ++ [s]) c) (hs : s.Checked)
    (hn : 30 * n < 2 ^ 53) (hl : o.populationSize ≤ 2 ^ 53) :
    .tolFun ∈ s.reasons ↔ ∃ vs d d',
      RecentBest o.mode (t ++ [s]) (pastGenerations n o.populationSize) vs ∧ IsSpread vs d ∧
      IsSpread s.values d' ∧ Flt.lt d o.tolFun = true ∧ Flt.lt d' o.tolFun = true := by
  rcases tolFun_core h hs hn hl with ⟨vs, d, d', hd, _, h1, _⟩ | ⟨hno, _, h1, _⟩
  · rw [h1]
    refine ⟨fun hlt => ⟨vs, d, d', hd.window, hd.spread, hd.current, hlt⟩, ?_⟩
    rintro ⟨vs', d2, d2', k1, k2, k3, k4⟩
    rw [lt_congr_num (IsSpread.unique (RecentBest.unique h hd.window k1) hd.spread k2) rfl,
      lt_congr_num (IsSpread.unique rfl hd.current k3) rfl]
    exact k4
  · exact ⟨fun hr => absurd hr h1, fun ⟨vs, _, _, hv, _⟩ => absurd hv (hno vs)⟩

/-- **C22, `TolFunRel`.** As `TolFun`, with `tol_fun_rel` times the distance between the first and
the best median as the tolerance. -/
theorem c22_tolFunRel (h : History.Of env obj o (t ++ [s]) c) (hs : s.Checked)
    (hn : 30 * n < 2 ^ 53) (hl : o.populationSize ≤ 2 ^ 53) :
    .tolFunRel ∈ s.reasons ↔ ∃ vs d d' a b,
      RecentBest o.mode (t ++ [s]) (pastGenerations n o.populationSize) vs ∧ IsSpread vs d ∧
      IsSpread s.values d' ∧ IsFirstMedian (t ++ [s]) a ∧ IsBestMedian o.mode (t ++ [s]) b ∧
      Flt.lt d (o.tolFunRel * Flt.abs (a - b)) = true ∧
      Flt.lt d' (o.tolFunRel * Flt.abs (a - b)) = true := by
  rcases tolFun_core h hs hn hl with ⟨vs, d, d', hd, _, _, h1⟩ | ⟨hno, _, _, h1⟩
  · rw [h1]
    refine ⟨fun ⟨a, b, k⟩ => ⟨vs, d, d', a, b, hd.window, hd.spread, hd.current, k⟩, ?_⟩
    rintro ⟨vs', d2, d2', a, b, k1, k2, k3, k4⟩
    rw [← lt_congr_num (IsSpread.unique (RecentBest.unique h hd.window k1) hd.spread k2) rfl,
      ← lt_congr_num (IsSpread.unique rfl hd.current k3) rfl] at k4
    exact ⟨a, b, k4⟩
  · exact ⟨fun hr => absurd hr h1, fun ⟨vs, _, _, _, _, hv, _⟩ => absurd hv (hno vs)⟩

/-- **C22, not early and not with infinities.** If any of the three criteria is reported, at least
`10 + ⌈30 n / λ⌉` generations were completed and no best value in the window is infinite. -/
theorem c22_window (h : History.Of env obj o (t ++ [s]) c) (hn : 30 * n < 2 ^ 53)
    (hl : o.populationSize ≤ 2 ^ 53)
    (hr : .tolFunHist ∈ s.reasons ∨ .tolFun ∈ s.reasons ∨ .tolFunRel ∈ s.reasons) :
    pastGenerations n o.populationSize ≤ ((t ++ [s]).filter fun s => ¬ s.Failed).length ∧
    ∃ vs, RecentBest o.mode (t ++ [s]) (pastGenerations n o.populationSize) vs ∧
      ∀ v ∈ vs, Flt.isInf v = false := by
  have hs : s.Checked := by
    rcases hr with hr | hr | hr <;> exact checked_of_reason h hr (by decide) (by decide)
  rcases tolFun_core h hs hn hl with ⟨vs, d, d', hd, h1, h2, h3⟩ | ⟨_, h1, h2, h3⟩
  · obtain ⟨hle, _⟩ := recentBest_nums h hd.window
    have := (c27_length h).1
    refine ⟨by omega, vs, hd.window, ?_⟩
    have hlt : ∃ tol, Flt.lt d tol = true := by
      rcases hr with hr | hr | hr
      · exact ⟨_, h1.mp hr⟩
      · exact ⟨_, (h2.mp hr).1⟩
      · obtain ⟨a, b, _, _, k, _⟩ := h3.mp hr
        exact ⟨_, k⟩
    obtain ⟨tol, hlt⟩ := hlt
    intro v hv
    by_contra hc
    rw [hd.spread.infinite ⟨v, hv, by simpa using hc⟩ tol] at hlt
    simp at hlt
  · tauto

/-! ### C23 -/

/-- The lower bound for `TolStagnation`: the option, or its default. -/
def stagnationBound (o : Options n F) : Nat :=
  match o.tolStagnation with
  | some k => k
  | none => 100 + Flt.toUsize (Flt.ceil ((100 : F) *
      Flt.powf (Flt.ofNat n) (Flt.ofRat (3 / 2)) / Flt.ofNat o.populationSize))

theorem did_regress {med : List F → Outcome F} {mode : Mode} {g : Nat} {vs : List F} {b : Bool}
    (hg : g ≤ historyCap) (hlen : g ≤ vs.length) (hn : ∀ v ∈ vs, Flt.isNaN v = false)
    (h : didValuesRegress med mode g vs = .ok b) :
    (b = true → Regressed mode (vs.take g)) ∧
      ∀ ws : List F, ws.map num = (vs.take g).map num → Regressed mode ws → b = true := by
  unfold didValuesRegress at h
  have h3 : Flt.toUsize (Flt.ofNat g * Flt.ofRat (3 / 10) : F) = 3 * g / 10 :=
    three_tenths g (by unfold historyCap at hg; omega)
  simp only [h3] at h
  rw [if_neg (by omega)] at h
  simp only [Outcome.bind_eq_ok, Outcome.ok.injEq] at h
  obtain ⟨x, hx, y, hy, hb⟩ := h
  have hl : (vs.take g).length = g := by simp [hlen]
  have hno1 : ∀ v ∈ (vs.take g).drop (g - 3 * g / 10), Flt.isNaN v = false :=
    fun v hv => hn v (List.mem_of_mem_take (List.mem_of_mem_drop hv))
  have hno2 : ∀ v ∈ (vs.take g).take (3 * g / 10), Flt.isNaN v = false :=
    fun v hv => hn v (List.mem_of_mem_take (List.mem_of_mem_take hv))
  have hlw : ∀ {ws : List F}, ws.map num = (vs.take g).map num → ws.length = g := fun hw => by
    have := congrArg List.length hw
    rwa [List.length_map, List.length_map, hl] at this
  unfold Regressed
  rw [hl]
  by_cases h0 : 3 * g / 10 = 0
  · have e : (vs.take g).take (3 * g / 10) = [] := by rw [h0]; rfl
    rw [e] at hy ⊢
    have hy' : y = Flt.nan := by
      unfold statrsMedian at hy
      simpa using hy.symm
    constructor
    · intro hb'
      rw [hb'] at hb
      have := (Mode.isBetter_iff.mp hb).2.1
      rw [hy', isNaN_nan] at this
      simp at this
    · rintro ws hw ⟨old, new, _, ⟨l, hp, _, _, h2⟩, _⟩
      rw [hlw hw, h0] at hp h2
      have : l = [] := by simpa using hp
      subst this
      obtain ⟨a, b, ha, _⟩ := h2 (by simp)
      simp at ha
  · have n1 : (vs.take g).drop (g - 3 * g / 10) ≠ [] := by
      intro hc
      have := congrArg List.length hc
      rw [List.length_drop, hl] at this
      simp only [List.length_nil] at this
      omega
    have n2 : (vs.take g).take (3 * g / 10) ≠ [] := by
      intro hc
      have := congrArg List.length hc
      rw [List.length_take, hl] at this
      simp only [List.length_nil] at this
      omega
    have hx' := statrsMedian_isMedian hno1 n1 hx
    have hy' := statrsMedian_isMedian hno2 n2 hy
    constructor
    · intro hb'
      rw [hb'] at hb
      exact ⟨x, y, hx', hy', better_iff.mpr (Mode.isBetter_iff.mp hb)⟩
    · rintro ws hw ⟨old, new, ho, hn', hbet⟩
      rw [hlw hw] at ho hn'
      have e1 := IsMedian.unique (by rw [List.map_drop, List.map_drop, hw]) ho hx'
      have e2 := IsMedian.unique (by rw [List.map_take, List.map_take, hw]) hn' hy'
      rw [← hb, ← isBetter_congr_num e1 e2]
      exact Mode.isBetter_iff.mpr (better_iff.mp hbet)

/-- Shape of the `TolStagnation` part of a completed generation. -/
theorem tolStagnation_core (h : History.Of env obj o (t ++ [s]) c) (hs : s.Checked) :
    (.tolStagnation ∉ s.reasons ∧ min (c.generation / 5) historyCap < stagnationBound o) ∨
    (stagnationBound o ≤ min (c.generation / 5) historyCap ∧
      ∃ a, didValuesRegress env.medianNaN o.mode (min (c.generation / 5) historyCap)
        c.history.bestValues = .ok a ∧
      (a = false → .tolStagnation ∉ s.reasons) ∧
      (a = true → ∃ b, didValuesRegress env.medianNaN o.mode (min (c.generation / 5) historyCap)
        c.history.medianValues = .ok b ∧ (.tolStagnation ∈ s.reasons ↔ b = true))) := by
  obtain ⟨c1, ps, inds, el, h1, hsam, hp, hg, hev, _, _, _, _, _, hch, _⟩ := checked_next h hs
  obtain ⟨ts, hts, m⟩ := (check_mem hch).2.2.2.2.2.2.2.2.2.1
  rw [m]
  have htp : (checkInput c el inds).parameters.termination.tolStagnation = stagnationBound o := by
    simp only [checkInput, hp, stagnationBound]
    show o.tolStagnation.getD _ = _
    cases o.tolStagnation <;> rfl
  have hmode : (checkInput c el inds).parameters.mode = o.mode := by
    simp only [checkInput, hp]; rfl
  have hgen : (checkInput c el inds).state.generation = c.generation := rfl
  have hhist : (checkInput c el inds).history = c.history := rfl
  unfold TerminationCheck.tolStagnation at hts
  rw [htp, hmode, hgen, hhist] at hts
  unfold tolStagnationGenerations at hts
  have hcap : maxHistoryLength = historyCap := rfl
  simp only [hcap] at hts
  by_cases hlt : min (c.generation / 5) historyCap < stagnationBound o
  · left
    rw [if_pos hlt] at hts
    injection hts with hts
    exact ⟨by simp [← hts], hlt⟩
  · right
    rw [if_neg hlt] at hts
    simp only at hts
    have hgenle : c.generation ≤ ((t ++ [s]).filter fun s => ¬ s.Failed).length := by
      obtain ⟨_, a2, _⟩ := c06_generations h
      omega
    obtain ⟨l1, l2⟩ := c27_length h
    have hle1 : min (c.generation / 5) historyCap ≤ c.history.bestValues.length := by
      rw [l1]; omega
    have hle2 : min (c.generation / 5) historyCap ≤ c.history.medianValues.length := by
      rw [l2]; omega
    rw [if_pos (by simp [hle1, hle2])] at hts
    simp only [Outcome.bind_eq_ok] at hts
    obtain ⟨a, ha, hts⟩ := hts
    refine ⟨not_lt.mp hlt, a, ha, ?_, ?_⟩
    · rintro rfl
      simp only [Bool.false_eq_true, if_false, Outcome.ok.injEq] at hts
      simp [← hts]
    · rintro rfl
      simp only [if_true] at hts
      exact ⟨ts, hts, Iff.rfl⟩

/-- **C23, exactly when.** Suppose no median in the history is NaN. Then `TolStagnation` is reported
exactly if the last fifth of the generations (at most 20000) is at least `tol_stagnation` long, and
both the best and the median values over this window became worse. -/
theorem c23_iff (h : History.Of env obj o (t ++ [s]) c) (hs : s.Checked)
    (hn : ∀ v ∈ c.history.medianValues, Flt.isNaN v = false) :
    .tolStagnation ∈ s.reasons ↔
      stagnationBound o ≤ min (c.generation / 5) historyCap ∧
      ∃ vs ms, RecentBest o.mode (t ++ [s]) (min (c.generation / 5) historyCap) vs ∧
        RecentMedians (t ++ [s]) (min (c.generation / 5) historyCap) ms ∧
        Regressed o.mode vs ∧ Regressed o.mode ms := by
  have hgenle : c.generation ≤ ((t ++ [s]).filter fun s => ¬ s.Failed).length := by
    obtain ⟨_, a2, _⟩ := c06_generations h
    omega
  obtain ⟨l1, l2⟩ := c27_length h
  have hle1 : min (c.generation / 5) historyCap ≤ c.history.bestValues.length := by
    rw [l1]; omega
  have hle2 : min (c.generation / 5) historyCap ≤ c.history.medianValues.length := by
    rw [l2]; omega
  rcases tolStagnation_core h hs with ⟨h1, h2⟩ | ⟨h1, a, ha, h2, h3⟩
  · exact ⟨fun hr => absurd hr h1, fun hr => absurd hr.1 (not_le.mpr h2)⟩
  have ra := did_regress (min_le_right _ _) hle1 (bestValues_noNaN' h) ha
  cases a with
  | false =>
    refine ⟨fun hr => absurd hr (h2 rfl), ?_⟩
    rintro ⟨_, vs, ms, k1, k2, k3, k4⟩
    exact absurd (ra.2 _ (recentBest_nums h k1).2 k3) (by simp)
  | true =>
    obtain ⟨b, hb, h4⟩ := h3 rfl
    have rb := did_regress (min_le_right _ _) hle2 hn hb
    rw [h4]
    constructor
    · intro hr
      exact ⟨h1, _, _, recentBest_take h hle1, recentMedians_take h hle2,
        ra.1 rfl, rb.1 hr⟩
    · rintro ⟨_, vs, ms, k1, k2, k3, k4⟩
      exact rb.2 _ (recentMedians_nums h k2).2 k4

/-- **C23, unconditionally.** If `TolStagnation` is reported then the best values over the window
became worse, `tol_stagnation` is at most 20000, and the generation is at least
`5 * tol_stagnation` and at least 20. -/
theorem c23_necessary (h : History.Of env obj o (t ++ [s]) c) (hr : .tolStagnation ∈ s.reasons) :
    (∃ vs, RecentBest o.mode (t ++ [s]) (min (c.generation / 5) historyCap) vs ∧
      Regressed o.mode vs) ∧
    stagnationBound o ≤ historyCap ∧ 5 * stagnationBound o ≤ c.generation ∧
    20 ≤ c.generation := by
  have hs := checked_of_reason h hr (by decide) (by decide)
  have hgenle : c.generation ≤ ((t ++ [s]).filter fun s => ¬ s.Failed).length := by
    obtain ⟨_, a2, _⟩ := c06_generations h
    omega
  obtain ⟨l1, l2⟩ := c27_length h
  have hle1 : min (c.generation / 5) historyCap ≤ c.history.bestValues.length := by
    rw [l1]; omega
  rcases tolStagnation_core h hs with ⟨h1, _⟩ | ⟨h1, a, ha, h2, h3⟩
  · exact absurd hr h1
  have ra := did_regress (min_le_right _ _) hle1 (bestValues_noNaN' h) ha
  cases a with
  | false => exact absurd hr (h2 rfl)
  | true =>
    have hreg := ra.1 rfl
    refine ⟨⟨_, recentBest_take h hle1, hreg⟩, by omega, by omega, ?_⟩
    by_contra hlt
    obtain ⟨old, new, _, ⟨l, hp, _, _, h2'⟩, _⟩ := hreg
    have hlen : (c.history.bestValues.take (min (c.generation / 5) historyCap)).length =
        min (c.generation / 5) historyCap := by simp [hle1]
    rw [hlen, show 3 * min (c.generation / 5) historyCap / 10 = 0 by omega] at hp h2'
    have : l = [] := by simpa using hp
    subst this
    obtain ⟨a, b, ha, _⟩ := h2' (by simp)
    simp at ha

/-! ### C24 -/

/-- The value of `tol_x`: the option, or its default. -/
def tolXBound (o : Options n F) : F := o.tolX.getD (Flt.ofRat (1 / 10 ^ 12) * o.initialStepSize)

/-- **C24, the implemented condition.** `TolX` is reported exactly if `sigma` times every diagonal
element of the covariance matrix and `sigma` times every component of the evolution path are below
`tol_x` in magnitude. -/
theorem c24_implemented (h : History.Of env obj o (t ++ [s]) c) (hs : s.Checked) :
    .tolX ∈ s.reasons ↔
      (∀ i, Flt.lt (Flt.abs (c.sigma * c.covarianceMatrix i i)) (tolXBound o) = true) ∧
      (∀ i, Flt.lt (Flt.abs (c.sigma * c.state.pathC i)) (tolXBound o) = true) := by
  obtain ⟨c1, ps, inds, el, h1, hsam, hp, hg, hev, _, _, _, _, _, hch, _⟩ := checked_next h hs
  rw [(check_mem hch).2.2.2.2.2.1]
  have htp : (checkInput c el inds).parameters.termination.tolX = tolXBound o := by
    simp only [checkInput, hp]; rfl
  unfold TerminationCheck.tolX
  rw [htp, Bool.and_eq_true, List.all_eq_true, List.all_eq_true]
  constructor
  · rintro ⟨h1, h2⟩
    exact ⟨fun i => h1 i (List.mem_finRange i), fun i => h2 i (List.mem_finRange i)⟩
  · rintro ⟨h1, h2⟩
    exact ⟨fun i _ => h1 i, fun i _ => h2 i⟩

/-! ### C25 -/

/-- **C25, `TolConditionCov`.** Reported exactly if the square of `axis_ratio()` is not a normal
number (infinite, NaN, zero or subnormal) or exceeds the tolerance. -/
theorem c25_tolConditionCov (h : History.Of env obj o (t ++ [s]) c) (hs : s.Checked) :
    .tolConditionCov ∈ s.reasons ↔
      Flt.isNormal (Flt.powi c.axisRatio 2) = false ∨
      Flt.lt o.tolConditionCov (Flt.powi c.axisRatio 2) = true := by
  obtain ⟨c1, ps, inds, el, h1, hsam, hp, hg, hev, _, _, _, _, _, hch, _⟩ := checked_next h hs
  rw [(check_mem hch).2.2.2.2.2.2.1]
  have htp : (checkInput c el inds).parameters.termination.tolConditionCov = o.tolConditionCov := by
    simp only [checkInput, hp]; rfl
  unfold TerminationCheck.tolConditionCov
  simp only [htp, Bool.or_eq_true, Bool.not_eq_true']
  rfl

/-- **C25, `NoEffectCoord`.** Reported exactly if for some coordinate adding a fifth of `sigma`
times the diagonal element of the covariance matrix to the mean does not change it. -/
theorem c25_noEffectCoord (h : History.Of env obj o (t ++ [s]) c) (hs : s.Checked) :
    .noEffectCoord ∈ s.reasons ↔ ∃ i, Flt.feq (c.mean i)
      (c.mean i + Flt.ofRat (2 / 10) * c.sigma * c.covarianceMatrix i i) = true := by
  obtain ⟨c1, ps, inds, el, h1, hsam, hp, hg, hev, _, _, _, _, _, hch, _⟩ := checked_next h hs
  rw [(check_mem hch).2.2.2.2.2.2.2.2.1]
  unfold TerminationCheck.noEffectCoord
  rw [List.any_eq_true]
  constructor
  · rintro ⟨i, _, hi⟩
    exact ⟨i, hi⟩
  · rintro ⟨i, hi⟩
    exact ⟨i, List.mem_finRange i, hi⟩

/-- **C25, `NoEffectAxis`.** Reported exactly if adding a tenth of the standard deviation along the
principal axis number `generation() % n` to the mean does not change it. -/
theorem c25_noEffectAxis (h : History.Of env obj o (t ++ [s]) c) (hs : s.Checked) :
    .noEffectAxis ∈ s.reasons ↔ ∃ k : Fin n, k.val = c.generation % n ∧
      ∀ i, Flt.feq (c.mean i) (c.mean i +
        Flt.ofRat (1 / 10) * c.sigma * c.state.cov.sqrtEigenvalues k k *
          c.state.cov.eigenvectors i k) = true := by
  obtain ⟨c1, ps, inds, el, h1, hsam, hp, hg, hev, _, _, _, _, _, hch, _⟩ := checked_next h hs
  obtain ⟨b, hb, m⟩ := (check_mem hch).2.2.2.2.2.2.2.1
  rw [m]
  unfold TerminationCheck.noEffectAxis at hb
  split at hb
  · rename_i hpos
    injection hb with hb
    rw [← hb]
    have hbeq : ∀ x y : Vec n F, x.beq y = true ↔ ∀ i, Flt.feq (x i) (y i) = true := by
      intro x y
      unfold Vec.beq
      rw [List.all_eq_true]
      simp [List.mem_ofFn]
    rw [hbeq]
    constructor
    · intro hall
      exact ⟨⟨c.generation % n, Nat.mod_lt _ hpos⟩, rfl, hall⟩
    · rintro ⟨k, hk, hall⟩
      have : k = ⟨c.generation % n, Nat.mod_lt _ hpos⟩ := Fin.ext hk
      subst this
      exact hall
  · simp at hb

theorem maxBy_spec {l : List F} {m : F} (hn : ∀ x ∈ l, Flt.isNaN x = false)
    (h : maxBy l = .ok m) : m ∈ l ∧ ∀ x ∈ l, Flt.le x m = true := by
  cases l with
  | nil => simp [maxBy] at h
  | cons a l =>
    simp only [maxBy, Outcome.ok.injEq] at h
    subst h
    induction l using List.reverseRecOn with
    | nil => simp [le_of_val (hn a (by simp)) (hn a (by simp)) le_rfl]
    | append_singleton l y ih =>
      obtain ⟨i1, i2⟩ := ih fun x hx => hn x (by
        rcases List.mem_cons.mp hx with h | h
        · simp [h]
        · simp [h])
      rw [List.foldl_append, List.foldl_cons, List.foldl_nil]
      set b := l.foldl (fun x y => if partialCmp x y = .gt then x else y) a with hb
      have hbn : Flt.isNaN b = false := hn b (by
        rcases List.mem_cons.mp i1 with h | h
        · simp [h]
        · simp [h])
      have hyn : Flt.isNaN y = false := hn y (by simp)
      split
      · rename_i hgt
        have hgt := (partialCmp_eq_gt_iff.mp hgt).2.2
        refine ⟨by rcases List.mem_cons.mp i1 with h | h <;> simp [h], ?_⟩
        intro x hx
        have hx' : x ∈ a :: l ∨ x = y := by simpa [or_assoc] using hx
        rcases hx' with hx | rfl
        · exact i2 x hx
        · exact le_of_val hyn hbn hgt.le
      · rename_i hgt
        have hle : val b ≤ val y := by
          rw [partialCmp_eq_gt_iff] at hgt
          exact not_lt.mp fun h => hgt ⟨hbn, hyn, h⟩
        refine ⟨by simp, ?_⟩
        intro x hx
        have hx' : x ∈ a :: l ∨ x = y := by simpa [or_assoc] using hx
        rcases hx' with hx | rfl
        · have := le_iff.mp (i2 x hx)
          exact le_of_val this.1 hyn (this.2.2.trans hle)
        · exact le_of_val hyn hyn le_rfl

/-- **C25, `TolXUp`.** If no axis length is NaN, it is reported exactly if `sigma` times the largest
axis length exceeds `tol_x_up` times the initial step size (computed as a quotient). -/
theorem c25_tolXUp (h : History.Of env obj o (t ++ [s]) c) (hs : s.Checked)
    (hn : ∀ i, Flt.isNaN (c.state.cov.sqrtEigenvalues i i) = false) :
    .tolXUp ∈ s.reasons ↔ ∃ k, (∀ i, Flt.le (c.state.cov.sqrtEigenvalues i i)
        (c.state.cov.sqrtEigenvalues k k) = true) ∧
      Flt.lt o.tolXUp (c.sigma * c.state.cov.sqrtEigenvalues k k / o.initialStepSize) = true := by
  obtain ⟨c1, ps, inds, el, h1, hsam, hp, hg, hev, _, _, _, _, _, hch, _⟩ := checked_next h hs
  obtain ⟨b, hb, m⟩ := (check_mem hch).2.2.2.2.2.2.2.2.2.2
  rw [m]
  have htp : (checkInput c el inds).parameters.termination.tolXUp = o.tolXUp := by
    simp only [checkInput, hp]; rfl
  have his : (checkInput c el inds).parameters.initialSigma = o.initialStepSize := by
    simp only [checkInput, hp]; rfl
  unfold TerminationCheck.tolXUp at hb
  rw [htp, his] at hb
  simp only [Outcome.bind_eq_ok, Outcome.ok.injEq] at hb
  obtain ⟨x, hx, hb⟩ := hb
  have hmem : ∀ y, y ∈ List.ofFn (checkInput c el inds).state.cov.sqrtEigenvalues.diag ↔
      ∃ i, c.state.cov.sqrtEigenvalues i i = y := by
    intro y
    rw [List.mem_ofFn]
    rfl
  obtain ⟨hx1, hx2⟩ := maxBy_spec (fun y hy => by
    obtain ⟨i, rfl⟩ := (hmem y).mp hy
    exact hn i) hx
  obtain ⟨k, hk⟩ := (hmem x).mp hx1
  rw [← hb]
  constructor
  · intro hlt
    exact ⟨k, fun i => by rw [hk]; exact hx2 _ ((hmem _).mpr ⟨i, rfl⟩), by rw [hk]; exact hlt⟩
  · rintro ⟨k', hk', hlt⟩
    have e : num (c.state.cov.sqrtEigenvalues k' k') = num x := by
      refine le_antisymm_num (hx2 _ ((hmem _).mpr ⟨k', rfl⟩)) ?_
      rw [← hk]
      exact hk' k
    rwa [lt_congr_num rfl (div_congr_num (mul_congr_num e))] at hlt

end Cmaes
