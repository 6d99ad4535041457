import Verif.Props.Termination

/-!
# C27 - C29: the recorded values
-/

set_option linter.unusedSectionVars false

namespace Cmaes
variable {n : Nat} {F R : Type} [Flt F] [FltLaws F]
open FltLaws
variable {env : Env n F R} {obj : Obj n F} {o : Options n F} {t u : List (NextCall n F)}
  {c c' c1 : CMAES n F R} {kind : EvalKind} {s : NextCall n F} {d : TerminationData n F}

/-- The recorded values of a generation. -/
theorem FreshInv.gen_values {gs : List (Gen n F)} (i : FreshInv env obj o t c gs) {g : Gen n F}
    (hg : g ∈ gs) :
    (∃ b, bestOf g.sorted = some b ∧ IsBest o.mode g.call.calls b) ∧
    ∃ m, medianOf g.sorted = some m ∧ IsMedian g.call.values m := by
  obtain ⟨h1, _⟩ := after_values i.history
  obtain ⟨hb, hm⟩ := h1 g.sorted (List.mem_map_of_mem hg)
  have hs := i.sampled g hg
  constructor
  · obtain ⟨b, hb⟩ := Option.isSome_iff_exists.mp hb
    refine ⟨b, hb, ?_⟩
    cases hl : g.sorted with
    | nil => rw [hl] at hb; simp [bestOf] at hb
    | cons p rest =>
      have hsort := hs.sorted
      rw [hl] at hb hsort
      simp only [bestOf, List.head?_cons, Option.map_some, Option.some.injEq] at hb
      subst hb
      have hp : p ∈ g.sorted := by rw [hl]; simp
      refine ⟨⟨p.call, hs.callsPerm.mem_iff.mpr (List.mem_map_of_mem hp), rfl⟩, ?_⟩
      intro e he hbet
      obtain ⟨q, hq, rfl⟩ := List.mem_map.mp (hs.callsPerm.mem_iff.mp he)
      rw [hl] at hq
      exact absurd (better_iff.mp hbet).2.2 (not_lt.mpr (sorted_head_le hsort q hq))
  · obtain ⟨m, hm⟩ := Option.isSome_iff_exists.mp hm
    refine ⟨m, hm, ?_⟩
    unfold medianOf at hm
    split at hm
    · rename_i m' hm'
      injection hm with hm
      subst hm
      refine medianValue_isMedian hs.inds_noNaN hs.sorted ?_ hm'
      have := hs.callsPerm.map fun e : Vec n F × F => e.2
      rw [List.map_map] at this
      exact this
    · simp at hm

theorem forall₂_filterMap {α β γ δ : Type} {f : α → Option β} {P : γ → β → Prop}
    {h : δ → α} {k' : δ → γ} {l : List δ}
    (hl : ∀ a ∈ l, ∃ b, f (h a) = some b ∧ P (k' a) b) :
    List.Forall₂ P (l.map k') ((l.map h).filterMap f) := by
  induction l with
  | nil => simp
  | cons a l ih =>
    obtain ⟨b, hb, hp⟩ := hl a (by simp)
    simp only [List.map_cons, List.filterMap_cons, hb]
    exact .cons hp (ih fun a ha => hl a (by simp [ha]))

/-- **C27.** The recorded best values are exactly the best values of the most recent completed
generations, newest first, at most 20000 of them; likewise the recorded medians. -/
theorem c27_history (h : History.Of env obj o t c) :
    List.Forall₂ (fun s v => IsBest o.mode s.calls v) ((completedNewest t).take historyCap)
      c.history.bestValues ∧
    List.Forall₂ (fun s v => IsMedian s.values v) ((completedNewest t).take historyCap)
      c.history.medianValues := by
  obtain ⟨gs, i, _⟩ := fresh_inv h
  obtain ⟨_, h2, h3, _⟩ := after_values i.history
  unfold completedNewest
  rw [← i.calls, h2, h3]
  constructor
  · refine List.forall₂_take _ (List.forall₂_reverse_iff.mpr ?_)
    exact forall₂_filterMap (h := Gen.sorted) (k' := Gen.call) (f := bestOf)
      (P := fun s v => IsBest o.mode s.calls v) fun g hg => (i.gen_values hg).1
  · refine List.forall₂_take _ (List.forall₂_reverse_iff.mpr ?_)
    exact forall₂_filterMap (h := Gen.sorted) (k' := Gen.call) (f := medianOf)
      (P := fun s v => IsMedian s.values v) fun g hg => (i.gen_values hg).2

/-- The number of recorded values. -/
theorem c27_length (h : History.Of env obj o t c) :
    c.history.bestValues.length = min historyCap (t.filter fun s => ¬ s.Failed).length ∧
    c.history.medianValues.length = min historyCap (t.filter fun s => ¬ s.Failed).length := by
  obtain ⟨h1, h2⟩ := c27_history h
  have e1 := h1.length_eq
  have e2 := h2.length_eq
  rw [List.length_take] at e1 e2
  unfold completedNewest at e1 e2
  rw [List.length_reverse] at e1 e2
  exact ⟨e1.symm, e2.symm⟩

/-- **C28.** After a completed generation the newest recorded median is the median of the values of
this generation. -/
theorem c28_median (h : History.Of env obj o (t ++ [s]) c) (hs : ¬ s.Failed) :
    ∃ m, c.history.medianValues.head? = some m ∧ IsMedian s.values m := by
  obtain ⟨_, h2⟩ := c27_history h
  have e : (completedNewest (t ++ [s])).take historyCap =
      s :: (completedNewest t).take (historyCap - 1) := by
    unfold completedNewest
    rw [List.filter_append, List.reverse_append, List.filter_cons_of_pos (by simpa using hs)]
    simp only [List.filter_nil, List.reverse_cons, List.reverse_nil, List.nil_append,
      List.singleton_append]
    rfl
  rw [e] at h2
  cases hm : c.history.medianValues with
  | nil => rw [hm] at h2; simp at h2
  | cons m ms =>
    rw [hm] at h2
    exact ⟨m, rfl, (List.forall₂_cons.mp h2).1⟩

/-- **C28, the median lies between two values.** If no sum of two values overflows (always true in
exact arithmetic for finite values), the median is a number between the smallest and the largest
value. -/
theorem c28_between {l : List F} {m : F} (hm : IsMedian l m) (h0 : l ≠ [])
    (hn : ∀ a ∈ l, Flt.isNaN a = false) (hf : ∀ a ∈ l, ∀ b ∈ l, Flt.isInf (a + b) = false) :
    ∃ x ∈ l, ∃ y ∈ l, Flt.le x m = true ∧ Flt.le m y = true := by
  obtain ⟨s, hp, hs, h1, h2⟩ := hm
  have hlen : l.length ≠ 0 := by simpa using h0
  rcases Nat.mod_two_eq_zero_or_one l.length with h | h
  · obtain ⟨a, b, ha, hb, rfl⟩ := h2 h
    have ha' := List.mem_of_getElem? ha
    have hb' := List.mem_of_getElem? hb
    rw [hp.mem_iff] at ha' hb'
    have hab : Flt.le a b = true := by
      rw [List.getElem?_eq_some_iff] at ha hb
      obtain ⟨ia, rfl⟩ := ha
      obtain ⟨ib, rfl⟩ := hb
      exact List.pairwise_iff_getElem.mp hs _ _ ia ib (by omega)
    have hi := hf a ha' b hb'
    have hab' := le_iff.mp hab
    have hna : Flt.isNaN (a + b) = false := by
      rw [← Bool.not_eq_true, isNaN_add]
      have haa := hf a ha' a ha'
      rintro (h | h | ⟨h, _⟩ | ⟨h, h'⟩)
      · rw [hn a ha'] at h; simp at h
      · rw [hn b hb'] at h; simp at h
      · have hsum : Flt.isNaN (a + a) = false := by
          rw [← Bool.not_eq_true, isNaN_add]
          rintro (h' | h' | ⟨_, h'⟩ | ⟨h', _⟩)
          · rw [hn a ha'] at h'; simp at h'
          · rw [hn a ha'] at h'; simp at h'
          · rw [h] at h'; simp at h'
          · rw [h] at h'; simp at h'
        have := add_top (hn a ha') h hsum
        have := isInf_iff.mpr ⟨hsum, .inl this⟩
        rw [haa] at this
        simp at this
      · have hbb := hf b hb' b hb'
        have hsum : Flt.isNaN (b + b) = false := by
          rw [← Bool.not_eq_true, isNaN_add]
          rintro (h'' | h'' | ⟨_, h''⟩ | ⟨h'', _⟩)
          · rw [hn b hb'] at h''; simp at h''
          · rw [hn b hb'] at h''; simp at h''
          · rw [h'] at h''; simp at h''
          · rw [h'] at h''; simp at h''
        have := add_top (hn b hb') h' hsum
        have := isInf_iff.mpr ⟨hsum, .inl this⟩
        rw [hbb] at this
        simp at this
    obtain ⟨k1, k2⟩ := mean_between hab'.1 hab'.2.1 hab'.2.2 hna hi
    have hnm : Flt.isNaN ((a + b) / 2) = false := by rw [isNaN_half]; exact hna
    exact ⟨a, ha', b, hb', le_of_val hab'.1 hnm k1, le_of_val hnm hab'.2.1 k2⟩
  · have hm := List.mem_of_getElem? (h1 h)
    rw [hp.mem_iff] at hm
    exact ⟨m, hm, m, hm, le_of_val (hn m hm) (hn m hm) le_rfl, le_of_val (hn m hm) (hn m hm) le_rfl⟩

theorem choose_spec {mode : Mode} (m : F) (ms : List F) :
    ms.foldl mode.chooseBest m ∈ m :: ms ∧
    ∀ x ∈ m :: ms, ¬ Better mode x (ms.foldl mode.chooseBest m) ∧
      (Flt.isNaN (ms.foldl mode.chooseBest m) = true → Flt.isNaN x = true) := by
  induction ms using List.reverseRecOn with
  | nil =>
    simp only [List.foldl_nil, List.mem_singleton, forall_eq, true_and, imp_self, and_true]
    intro h
    exact lt_irrefl _ (better_iff.mp h).2.2
  | append_singleton ms x ih =>
    rw [List.foldl_append, List.foldl_cons, List.foldl_nil]
    set b := ms.foldl mode.chooseBest m with hb
    obtain ⟨i1, i2⟩ := ih
    have key : (mode.chooseBest b x = b ∨ mode.chooseBest b x = x) ∧
        (¬ Better mode b (mode.chooseBest b x)) ∧ (¬ Better mode x (mode.chooseBest b x)) ∧
        (Flt.isNaN (mode.chooseBest b x) = true → Flt.isNaN b = true ∧ Flt.isNaN x = true) := by
      simp only [better_iff]
      cases mode <;> simp only [Mode.chooseBest, Flt.fmin, Flt.fmax, Mode.key]
      · cases hb1 : Flt.isNaN b <;> cases hx1 : Flt.isNaN x <;> simp [hb1, hx1]
        rw [lt_eq_decide (by assumption) (by assumption)]
        split <;> simp_all
        · exact le_of_lt (by assumption)
      · cases hb1 : Flt.isNaN b <;> cases hx1 : Flt.isNaN x <;> simp [hb1, hx1]
        rw [lt_eq_decide (by assumption) (by assumption)]
        split <;> simp_all
        · exact le_of_lt (by assumption)
    obtain ⟨k1, k2, k3, k4⟩ := key
    set r := mode.chooseBest b x with hr
    constructor
    · rcases k1 with k | k
      · rw [k]
        rcases List.mem_cons.mp i1 with h | h
        · simp [h]
        · simp [h]
      · rw [k]; simp
    · intro y hy
      have hy' : y ∈ m :: ms ∨ y = x := by simpa [or_assoc] using hy
      rcases hy' with hy | rfl
      · obtain ⟨j1, j2⟩ := i2 y hy
        refine ⟨?_, fun h => j2 (k4 h).1⟩
        rcases k1 with k | k
        · rw [k]; exact j1
        · rw [k] at k2 ⊢
          intro hbet
          obtain ⟨a1, a2, a3⟩ := better_iff.mp hbet
          cases hb1 : Flt.isNaN b with
          | true => rw [j2 hb1] at a1; simp at a1
          | false =>
            apply j1
            rw [better_iff]
            refine ⟨a1, hb1, lt_of_lt_of_le a3 (not_lt.mp fun hlt => k2 (better_iff.mpr ⟨hb1, a2, hlt⟩))⟩
      · exact ⟨k3, fun h => (k4 h).2⟩

/-- **C29.** The first median is the median of the first completed generation, for ever, and the
best median is the best of the medians of all completed generations (NaN only if all are). Before
the first completed generation there is none. -/
theorem c29_medians (h : History.Of env obj o t c) :
    (∀ m, c.history.firstMedian = some m → IsFirstMedian t m) ∧
    (∀ m, c.history.bestMedian = some m → IsBestMedian o.mode t m) ∧
    (c.history.firstMedian.isSome ↔ ∃ s ∈ t, ¬ s.Failed) ∧
    (c.history.bestMedian.isSome ↔ ∃ s ∈ t, ¬ s.Failed) := by
  obtain ⟨gs, i, _⟩ := fresh_inv h
  obtain ⟨h1, _, _, h4, h5⟩ := after_values i.history
  have hmem : ∀ s, (s ∈ t ∧ ¬ s.Failed) ↔ ∃ g ∈ gs, g.call = s := by
    intro s
    rw [← List.mem_map, i.calls]
    simp
  cases gs with
  | nil =>
    have hno : ¬ ∃ s ∈ t, ¬ s.Failed := by
      rintro ⟨s, hs⟩
      simpa using (hmem s).mp hs
    simp only [List.map_nil, List.filterMap_nil, List.head?_nil] at h4 h5
    simp only [h4, h5]
    simp [hno]
  | cons g gs =>
    obtain ⟨m0, hm0, hmed0⟩ := (i.gen_values (g := g) (by simp)).2
    have hyes : ∃ s ∈ t, ¬ s.Failed := ⟨g.call, (hmem _).mpr ⟨g, by simp, rfl⟩⟩
    simp only [List.map_cons, List.filterMap_cons, hm0, List.head?_cons] at h4 h5
    refine ⟨?_, ?_, by rw [h4]; simpa using hyes, by rw [h5]; simpa using hyes⟩
    · intro m hm
      rw [h4] at hm
      injection hm with hm
      subst hm
      exact ⟨g.call, by rw [← i.calls]; rfl, hmed0⟩
    · intro m hm
      rw [h5] at hm
      injection hm with hm
      subst hm
      obtain ⟨c1, c2⟩ := choose_spec (mode := o.mode) m0
        ((gs.map Gen.sorted).filterMap medianOf)
      have hin : ∀ x, x ∈ m0 :: (gs.map Gen.sorted).filterMap medianOf ↔
          ∃ g' ∈ g :: gs, medianOf g'.sorted = some x := by
        intro x
        simp only [List.mem_cons, List.mem_filterMap, List.mem_map, exists_exists_and_eq_and,
          exists_eq_or_imp, hm0, Option.some.injEq]
        constructor
        · rintro (rfl | h)
          · exact .inl rfl
          · exact .inr h
        · rintro (rfl | h)
          · exact .inl rfl
          · exact .inr h
      constructor
      · obtain ⟨g', hg', hx⟩ := (hin _).mp c1
        obtain ⟨m', hm', hmed⟩ := (i.gen_values hg').2
        rw [hx] at hm'
        injection hm' with hm'
        have := (hmem g'.call).mpr ⟨g', hg', rfl⟩
        exact ⟨g'.call, this.1, this.2, hm' ▸ hmed⟩
      · intro s hs hf m' hm'
        obtain ⟨g', hg', rfl⟩ := (hmem s).mp ⟨hs, hf⟩
        obtain ⟨m2, h2, hmed⟩ := (i.gen_values hg').2
        have e := IsMedian.unique rfl hm' hmed
        obtain ⟨d1, d2⟩ := c2 _ ((hin _).mpr ⟨g', hg', h2⟩)
        refine ⟨fun hb => d1 ?_, fun hn => (isNaN_of_num e).trans (d2 hn)⟩
        rw [better_iff, ← Mode.isBetter_iff] at hb ⊢
        rwa [← isBetter_congr_num e rfl]

/-! ### C62 -/

/-- **C62.** `range` is `None` exactly for the empty list and for lists with a NaN after the first
element. -/
theorem c62_none {l : List F} : range l = none ↔ l = [] ∨ ∃ x ∈ l.tail, Flt.isNaN x = true :=
  range_none

/-- **C62.** Without NaN the result is the largest minus the smallest element; it is never
negative. -/
theorem c62_some {l : List F} {d : F} (hn : ∀ x ∈ l, Flt.isNaN x = false)
    (h : range l = some d) : IsSpread l d ∧ Flt.lt d 0 = false := by
  have hs := range_spec hn h
  refine ⟨hs, ?_⟩
  rw [← Bool.not_eq_true]
  intro hlt
  obtain ⟨h1, _, h3⟩ := lt_iff.mp hlt
  have h0 : val (0 : F) = 0 := by
    have := val_ofNat (F := F) 0 (by norm_num)
    exact this.trans (by simp)
  rw [h0] at h3
  exact absurd (hs.nonneg h1) (not_le.mpr h3)

section
open Witness

/-- C62: an ordinary case. -/
example : range [(3 : F64), 1, 2] = some 2 := by decide +kernel

/-- **C62, NaN in first position.** The documentation promises `None` if any value is NaN, but the
result is a number if the NaN comes first. -/
theorem c62_first_nan : range [(Flt.nan : F64), 1, 2] = some Flt.nan := by decide +kernel

/-- **C62, infinities.** The documentation promises a positive result, but it is NaN if all values
are infinite. -/
theorem c62_infinite : range [(Flt.inf : F64), Flt.inf] = some Flt.nan := by decide +kernel

/-- An objective whose values are close to the largest number. -/
def huge : Obj 2 F64 := { f := fun _ _ => Flt.ofRat (2 ^ 1023), log := [] }

/-- **C28, overflow.** All values of this generation are finite but the median is infinite. -/
theorem c28_overflow : ∃ t c, History.Of (wenv 2) huge opts t c ∧
    decide (t.all (fun s => s.values.all fun v => !Flt.isInf v) = true ∧
      c.history.medianValues = [Flt.inf]) = true :=
  exists_history [.seq] _ opts_valid (by decide +kernel)

/-- An objective that alternates between the two infinities. -/
def infinities : Obj 2 F64 :=
  { f := fun log _ => if log.length % 2 = 0 then Flt.inf else -Flt.inf, log := [] }

/-- **C28, NaN.** The median of a generation with both infinities is NaN although no value is. -/
theorem c28_nan : ∃ t c, History.Of (wenv 2) infinities opts t c ∧
    decide (t.all (fun s => s.values.all fun v => !Flt.isNaN v) = true ∧
      c.history.medianValues = [Flt.nan]) = true :=
  exists_history [.seq] _ opts_valid (by decide +kernel)

/-- C27 - C29: three generations; the best median is that of the last one and differs from the
first. -/
example : ∃ t c, History.Of (wenv 2) sphere opts t c ∧
    decide ((t.filter fun s => ¬ s.Failed).length = 3 ∧ c.history.bestValues.length = 3 ∧
      c.history.firstMedian.isSome ∧ c.history.bestMedian = c.history.medianValues.head? ∧
      c.history.bestMedian ≠ c.history.firstMedian) = true :=
  exists_history [.seq, .par, .seq] _ opts_valid (by decide +kernel)

/-- C28: the hypotheses of `c28_between`. -/
example : (∀ a ∈ [(3 : F64), 1, 2, 5], Flt.isNaN a = false) ∧
    ∀ a ∈ [(3 : F64), 1, 2, 5], ∀ b ∈ [(3 : F64), 1, 2, 5], Flt.isInf (a + b) = false := by
  decide +kernel

end

end Cmaes
