import Verif.Lemmas.SearchSim

/-!
# Maximizing `f` and minimizing `-f`: lemmas
-/

set_option linter.unusedSectionVars false

namespace Cmaes
variable {n : Nat} {F R : Type} [Flt F]
open FltLaws

section
variable [FltLaws F]

theorem flt_neg_neg (a : F) : - -a = a := FltLaws.neg_neg a

theorem flt_abs_neg (a : F) : Flt.abs (-a) = Flt.abs a := FltLaws.abs_neg a

theorem flt_lt_neg (a b : F) : Flt.lt (-a) (-b) = Flt.lt b a := by
  rw [Bool.eq_iff_iff, lt_iff, lt_iff, isNaN_neg, isNaN_neg, val_neg, val_neg,
    EReal.neg_lt_neg_iff]
  tauto

theorem flt_le_neg (a b : F) : Flt.le (-a) (-b) = Flt.le b a := by
  rw [Bool.eq_iff_iff, le_iff, le_iff, isNaN_neg, isNaN_neg, val_neg, val_neg,
    EReal.neg_le_neg_iff]
  tauto

theorem partialCmp_neg_lt {x y : F} : partialCmp (-x) (-y) = .lt ↔ partialCmp x y = .gt := by
  rw [partialCmp_eq_lt_iff, partialCmp_eq_gt_iff, isNaN_neg, isNaN_neg, val_neg, val_neg,
    EReal.neg_lt_neg_iff]

theorem partialCmp_neg_gt {x y : F} : partialCmp (-x) (-y) = .gt ↔ partialCmp x y = .lt := by
  rw [partialCmp_eq_lt_iff, partialCmp_eq_gt_iff, isNaN_neg, isNaN_neg, val_neg, val_neg,
    EReal.neg_lt_neg_iff]

theorem isBetter_neg (a b : F) :
    Mode.minimize.isBetter (-a) (-b) = Mode.maximize.isBetter a b := flt_lt_neg a b

theorem chooseBest_neg (a b : F) :
    Mode.minimize.chooseBest (-a) (-b) = -Mode.maximize.chooseBest a b := by
  simp only [Mode.chooseBest, Flt.fmin, Flt.fmax, isNaN_neg, flt_lt_neg]
  split
  · rfl
  · split
    · rfl
    · split <;> rfl

/-- The spread of negated values. -/
theorem rangeLoop_neg (l : List F) : ∀ mn mx : F,
    rangeLoop (-mx) (-mn) (l.map fun v => -v) = rangeLoop mn mx l := by
  induction l with
  | nil =>
    intro mn mx
    simp only [List.map_nil, rangeLoop, Option.some.injEq]
    rw [sub_def, sub_def, flt_neg_neg, FltLaws.add_comm]
  | cons x xs ih =>
    intro mn mx
    simp only [List.map_cons, rangeLoop, isNaN_neg, partialCmp_neg_lt, partialCmp_neg_gt]
    split
    · rfl
    · rw [← ih]
      congr 1 <;> split <;> rfl

theorem range_neg (l : List F) : range (l.map fun v => -v) = range l := by
  cases l with
  | nil => rfl
  | cons x xs => exact rangeLoop_neg xs x x

theorem stableSort_le_eq {l : List F} (h : ∀ x ∈ l, Flt.isNaN x = false) :
    (stableSort (fun a b => Flt.le a b) l).Pairwise fun a b => val a ≤ val b := by
  classical
  let r : F → F → Prop := fun a b => val a ≤ val b
  have : Std.Total r := ⟨fun _ _ => le_total _ _⟩
  have : IsTrans F r := ⟨fun _ _ _ h h' => le_trans h h'⟩
  have := List.map_insertionSort (r := fun a b : F => Flt.le a b = true) (s := r) id l
    (fun a ha b hb => by simp only [id, le_iff, h a ha, h b hb, true_and]; rfl)
  have e : stableSort (fun a b => Flt.le a b) l = l.insertionSort r := by
    simpa [stableSort] using this
  rw [e]
  exact List.pairwise_insertionSort r l

/-! ### Numbers that are opposite up to the sign of a zero -/

theorem val_lit_zero : val (0 : F) = 0 := by
  have := val_ofNat (F := F) 0 (by norm_num)
  show val (Flt.ofRat ((0 : ℕ) : ℚ) : F) = 0
  rw [this]; simp

theorem opposite_iff {a b : F} :
    Opposite a b ↔ Flt.isNaN b = Flt.isNaN a ∧ val b = -val a := by
  have h0 : Flt.isNaN (0 : F) = false := isNaN_ofRat _
  constructor
  · rintro (rfl | ⟨h1, h2⟩)
    · exact ⟨isNaN_neg a, val_neg a⟩
    · obtain ⟨n1, _, v1⟩ := feq_iff.mp h1
      obtain ⟨n2, _, v2⟩ := feq_iff.mp h2
      rw [n1, n2, v1, v2, val_lit_zero]
      simp
  · rintro ⟨h1, h2⟩
    cases hn : Flt.isNaN a with
    | true =>
      left
      rw [isNaN_eq (h1.trans hn)]
      exact (isNaN_eq (by rw [isNaN_neg, hn])).symm
    | false =>
      rw [hn] at h1
      by_cases hz : val b = 0
      · right
        have hz' : val a = 0 := by rw [hz] at h2; exact EReal.neg_eq_zero_iff.mp h2.symm
        exact ⟨feq_iff.mpr ⟨hn, h0, hz'.trans val_lit_zero.symm⟩,
          feq_iff.mpr ⟨h1, h0, hz.trans val_lit_zero.symm⟩⟩
      · left
        exact val_inj_ne h1 (by rw [isNaN_neg, hn]) (by rw [h2, val_neg]) hz

theorem opposite_neg (a : F) : Opposite a (-a) := .inl rfl

namespace Opposite
variable {a a' b b' : F}

theorem nan (h : Opposite a a') : Flt.isNaN a' = Flt.isNaN a := (opposite_iff.mp h).1

theorem val (h : Opposite a a') : FltLaws.val a' = -FltLaws.val a := (opposite_iff.mp h).2

theorem neg (h : Opposite a a') : Opposite (-a) (-a') :=
  opposite_iff.mpr ⟨by rw [isNaN_neg, isNaN_neg, h.nan], by rw [val_neg, val_neg, h.val]⟩

theorem lt (h : Opposite a a') (h' : Opposite b b') : Flt.lt a' b' = Flt.lt b a := by
  rw [Bool.eq_iff_iff, lt_iff, lt_iff, h.nan, h'.nan, h.val, h'.val, EReal.neg_lt_neg_iff]
  tauto

theorem isBetter (h : Opposite a a') (h' : Opposite b b') :
    Mode.minimize.isBetter a' b' = Mode.maximize.isBetter a b := h.lt h'

theorem chooseBest (h : Opposite a a') (h' : Opposite b b') :
    Opposite (Mode.maximize.chooseBest a b) (Mode.minimize.chooseBest a' b') := by
  simp only [Mode.chooseBest, Flt.fmin, Flt.fmax, h.nan, h'.nan, h'.lt h]
  split
  · exact h'
  · split
    · exact h
    · split
      · exact h'
      · exact h

/-- Sums of equal numbers are equal up to the sign of a zero. -/
theorem add_congr {a a' b : F} (hn : Flt.isNaN a' = Flt.isNaN a)
    (hv : FltLaws.val a' = FltLaws.val a) :
    Flt.isNaN (a' + b) = Flt.isNaN (a + b) ∧
      (Flt.isNaN (a + b) = false → FltLaws.val (a' + b) = FltLaws.val (a + b)) := by
  have e : Flt.isNaN (a' + b) = Flt.isNaN (a + b) := by
    rw [Bool.eq_iff_iff, isNaN_add, isNaN_add, hn, hv]
  refine ⟨e, fun h => le_antisymm ?_ ?_⟩
  · exact add_le_add_right (e.trans h) h hv.le
  · exact add_le_add_right h (e.trans h) hv.ge

theorem add (h : Opposite a a') (h' : Opposite b b') : Opposite (a + b) (a' + b') := by
  have e1 := add_congr (b := b') (h.nan.trans (isNaN_neg a).symm) (h.val.trans (val_neg a).symm)
  have e2 := add_congr (b := -a) (h'.nan.trans (isNaN_neg b).symm)
    (h'.val.trans (val_neg b).symm)
  rw [FltLaws.add_comm b', FltLaws.add_comm (-b)] at e2
  have e3 : Flt.isNaN (-a + -b) = Flt.isNaN (a + b) := by
    rw [Bool.eq_iff_iff, isNaN_add, isNaN_add, isNaN_neg, isNaN_neg, val_neg, val_neg]
    simp only [EReal.neg_eq_top_iff, EReal.neg_eq_bot_iff]
    tauto
  have hn : Flt.isNaN (a' + b') = Flt.isNaN (a + b) := by rw [e1.1, e2.1, e3]
  cases hc : Flt.isNaN (a + b) with
  | true =>
    left
    rw [isNaN_eq (hn.trans hc)]
    exact (isNaN_eq (by rw [isNaN_neg, hc])).symm
  | false =>
    refine opposite_iff.mpr ⟨hn, ?_⟩
    rw [e1.2 (by rw [e2.1, e3, hc]), e2.2 (by rw [e3, hc]), val_neg_add]

theorem half (h : Opposite a a') : Opposite (a / 2) (a' / 2) := by
  rcases h with rfl | ⟨h1, h2⟩
  · exact .inl (FltLaws.neg_div _ _)
  · obtain ⟨n1, _, v1⟩ := feq_iff.mp h1
    obtain ⟨n2, _, v2⟩ := feq_iff.mp h2
    rw [val_lit_zero] at v1 v2
    refine opposite_iff.mpr ⟨by rw [isNaN_half, isNaN_half, n1, n2], ?_⟩
    rw [half_zero n1 v1, half_zero n2 v2, neg_zero]

theorem abs (h : Opposite a a') : Flt.abs a' = Flt.abs a := by
  rcases h with rfl | ⟨h1, h2⟩
  · exact flt_abs_neg a
  · obtain ⟨n1, _, v1⟩ := feq_iff.mp h1
    obtain ⟨n2, _, v2⟩ := feq_iff.mp h2
    rw [val_lit_zero] at v1 v2
    rw [abs_zero n1 v1, abs_zero n2 v2]

end Opposite

theorem opposite_map (l : List F) : List.Forall₂ Opposite l (l.map fun v => -v) := by
  rw [List.forall₂_map_right_iff]
  exact List.forall₂_same.mpr fun a _ => opposite_neg a

theorem medianValue_neg (inds : List (EvaluatedPoint n F)) :
    Outcome.Rel Opposite (medianValue inds) (medianValue (inds.map (mapPt fun v => -v))) := by
  unfold medianValue
  simp only [List.length_map, List.getElem?_map]
  split
  · split
    · exact .panic _
    · cases inds[inds.length / 2 - 1]? with
      | none => exact .panic _
      | some a =>
        cases inds[inds.length / 2]? with
        | none => exact .panic _
        | some b => exact .ok ((opposite_neg _).add (opposite_neg _)).half
  · cases inds[inds.length / 2]? with
    | none => exact .panic _
    | some a => exact .ok (opposite_neg _)

/-- `h'` is the history of the mirrored run: values are negated, medians are opposite up to the
sign of a zero. -/
structure History.Mirrors (h h' : History n F) : Prop where
  bestValues : h'.bestValues = h.bestValues.map fun v => -v
  medianValues : List.Forall₂ Opposite h.medianValues h'.medianValues
  currentBest : h'.currentBest = h.currentBest.map Individual.negated
  overallBest : h'.overallBest = h.overallBest.map Individual.negated
  firstMedian : Option.Rel Opposite h.firstMedian h'.firstMedian
  bestMedian : Option.Rel Opposite h.bestMedian h'.bestMedian

theorem pushCapped_neg (x : F) (l : List F) :
    pushCapped (-x) (l.map fun v => -v) = (pushCapped x l).map fun v => -v := by
  simp only [pushCapped, List.length_cons, List.length_map]
  split
  · rw [List.map_dropLast]; rfl
  · rfl

theorem pushCapped_opposite {x x' : F} {l l' : List F} (hx : Opposite x x')
    (h : List.Forall₂ Opposite l l') :
    List.Forall₂ Opposite (pushCapped x l) (pushCapped x' l') := by
  simp only [pushCapped, List.length_cons, h.length_eq]
  split
  · rw [List.dropLast_eq_take, List.dropLast_eq_take]
    have : List.Forall₂ Opposite (x :: l) (x' :: l') := .cons hx h
    rw [this.length_eq]
    exact List.forall₂_take _ this
  · exact .cons hx h

theorem History.Mirrors.new : (History.new : History n F).Mirrors History.new :=
  ⟨rfl, .nil, rfl, rfl, .none, .none⟩

theorem History.Mirrors.update {h h' : History n F} (hh : h.Mirrors h')
    (inds : List (EvaluatedPoint n F)) :
    Outcome.Rel History.Mirrors (h.update .maximize inds)
      (h'.update .minimize (inds.map (mapPt fun v => -v))) := by
  unfold History.update
  rw [List.getElem?_map]
  cases inds[0]? with
  | none => exact .panic _
  | some a =>
    simp only [Option.map_some, Outcome.unwrap_some, Outcome.ok_bind]
    refine Outcome.Rel.bind (medianValue_neg inds) fun m m' hm => .ok ?_
    obtain ⟨bv, mv, cb, ob, fm, bm⟩ := h
    obtain ⟨bv', mv', cb', ob', fm', bm'⟩ := h'
    obtain ⟨h1, h2, h3, h4, h5, h6⟩ := hh
    simp only at h1 h2 h3 h4 h5 h6
    subst h1 h3 h4
    refine ⟨?_, pushCapped_opposite hm h2, rfl, ?_, ?_, ?_⟩
    · simp only [History.updateBest, mapPt_value, pushCapped_neg]
    · cases ob with
      | none => rfl
      | some x =>
        simp only [History.updateBest, Option.map_some, Individual.negated, mapPt_value,
          mapPt_point, isBetter_neg]
        split <;> rfl
    · cases h5 with
      | none => exact .some hm
      | some h5 => exact .some h5
    · cases h6 with
      | none => exact .some hm
      | some h6 => exact .some (h6.chooseBest hm)

/-! ### The median of `statrs` -/

theorem vals_opposite {l l' : List F} (h : List.Forall₂ Opposite l l') :
    l'.map val = (l.map val).map fun v => -v := by
  induction h with
  | nil => rfl
  | cons hx _ ih => simp only [List.map_cons, ih, hx.val]

theorem any_opposite {l l' : List F} (h : List.Forall₂ Opposite l l') :
    l'.any Flt.isNaN = l.any Flt.isNaN := by
  induction h with
  | nil => rfl
  | cons hx _ ih => simp only [List.any_cons, ih, hx.nan]

/-- Sorting opposite lists gives opposite lists in reverse order. -/
theorem stableSort_opposite {l l' : List F} (h : List.Forall₂ Opposite l l')
    (hn : ∀ x ∈ l, Flt.isNaN x = false) (hn' : ∀ x ∈ l', Flt.isNaN x = false) (i : Nat)
    (hi : i < l.length) :
    ∃ a a', (stableSort (fun a b => Flt.le a b) l)[i]? = some a ∧
      (stableSort (fun a b => Flt.le a b) l')[l.length - 1 - i]? = some a' ∧ Opposite a a' := by
  set s := stableSort (fun a b => Flt.le a b) l with hs
  set s' := stableSort (fun a b => Flt.le a b) l' with hs'
  have p : s.Perm l := stableSort_perm _ _
  have p' : s'.Perm l' := stableSort_perm _ _
  have hv : s'.map val = ((s.map val).map fun v => -v).reverse := by
    refine List.Perm.eq_of_pairwise (le := fun a b : EReal => a ≤ b) ?_ ?_ ?_ ?_
    · intro a b _ _ hab hba; exact le_antisymm hab hba
    · rw [List.pairwise_map]; exact stableSort_le_eq hn'
    · rw [List.pairwise_reverse, List.pairwise_map, List.pairwise_map]
      refine (stableSort_le_eq hn).imp ?_
      intro a b hab
      exact EReal.neg_le_neg_iff.mpr hab
    · refine (p'.map _).trans ?_
      rw [vals_opposite h]
      exact ((p.symm.map _).map _).trans (List.reverse_perm _).symm
  have hl : s.length = l.length := p.length_eq
  have hl' : s'.length = l.length := p'.length_eq.trans h.length_eq.symm
  have h1 : i < s.length := by omega
  have h2 : l.length - 1 - i < s'.length := by omega
  refine ⟨s[i], s'[l.length - 1 - i], List.getElem?_eq_getElem h1, List.getElem?_eq_getElem h2,
    opposite_iff.mpr ⟨?_, ?_⟩⟩
  · rw [hn _ (p.mem_iff.mp (List.getElem_mem h1)), hn' _ (p'.mem_iff.mp (List.getElem_mem h2))]
  · have e := congrArg (fun l => l[l.length - 1 - i]?) hv
    have e1 : (s'.map val)[l.length - 1 - i]? = some (val s'[l.length - 1 - i]) := by
      rw [List.getElem?_map, List.getElem?_eq_getElem h2]; rfl
    have e2 : (((s.map val).map fun v => -v).reverse)[l.length - 1 - i]? = some (-val s[i]) := by
      rw [List.getElem?_reverse (by simp only [List.length_map]; omega), List.length_map,
        List.length_map, hl, show l.length - 1 - (l.length - 1 - i) = i by omega,
        List.getElem?_map, List.getElem?_map, List.getElem?_eq_getElem h1]
      rfl
    rw [hv, e2] at e1
    exact (Option.some.inj e1).symm

theorem statrsMedian_neg {m : List F → Outcome F} {l l' : List F}
    (h : List.Forall₂ Opposite l l')
    (hm : (∃ x ∈ l, Flt.isNaN x = true) → Outcome.Rel Opposite (m l) (m l')) :
    Outcome.Rel Opposite (statrsMedian m l) (statrsMedian m l') := by
  unfold statrsMedian
  rw [any_opposite h]
  cases hc : l.any Flt.isNaN with
  | true =>
    simp only [if_true]
    exact hm (by simpa using hc)
  | false =>
    simp only [Bool.false_eq_true, if_false, ← h.length_eq]
    have hn : ∀ x ∈ l, Flt.isNaN x = false := by simpa using hc
    have hn' : ∀ x ∈ l', Flt.isNaN x = false := by
      have := (any_opposite h).trans hc
      simpa using this
    have key := stableSort_opposite h hn hn'
    split
    · exact .ok (opposite_iff.mpr ⟨rfl, by
        rw [← val_neg, isNaN_eq (a := -(Flt.nan : F)) (by rw [isNaN_neg, isNaN_nan])]⟩)
    · split
      · obtain ⟨a, a', h1, h2, h3⟩ := key (l.length / 2) (by omega)
        rw [show l.length - 1 - l.length / 2 = l.length / 2 by omega] at h2
        rw [h1, h2]
        exact .ok h3
      · obtain ⟨a, a', h1, h2, h3⟩ := key (l.length / 2) (by omega)
        obtain ⟨b, b', h4, h5, h6⟩ := key (l.length / 2 - 1) (by omega)
        rw [show l.length - 1 - l.length / 2 = l.length / 2 - 1 by omega] at h2
        rw [show l.length - 1 - (l.length / 2 - 1) = l.length / 2 by omega] at h5
        rw [h1, h2, h4, h5]
        refine .ok ?_
        rw [FltLaws.add_comm b a]
        exact (h3.add h6).half

theorem didValuesRegress_neg {m : List F → Outcome F} {g : Nat} {values values' : List F}
    (h : List.Forall₂ Opposite values values')
    (hm : ∀ l l', (∃ x ∈ l, Flt.isNaN x = true) → l ⊆ values → List.Forall₂ Opposite l l' →
      Outcome.Rel Opposite (m l) (m l')) :
    didValuesRegress m .minimize g values' = didValuesRegress m .maximize g values := by
  unfold didValuesRegress
  dsimp only
  split
  · rfl
  · rename_i hg
    have r1 := statrsMedian_neg (m := m)
      (List.forall₂_drop (g - Flt.toUsize (Flt.ofNat g * Flt.ofRat (3 / 10) : F))
        (List.forall₂_take g h))
      fun hx => hm _ _ hx (fun _ hx => List.mem_of_mem_take (List.mem_of_mem_drop hx))
        (List.forall₂_drop _ (List.forall₂_take g h))
    have r2 := statrsMedian_neg (m := m)
      (List.forall₂_take (Flt.toUsize (Flt.ofNat g * Flt.ofRat (3 / 10) : F))
        (List.forall₂_take g h))
      fun hx => hm _ _ hx (fun _ hx => List.mem_of_mem_take (List.mem_of_mem_take hx))
        (List.forall₂_take _ (List.forall₂_take g h))
    generalize statrsMedian m (List.drop _ (List.take g values)) = x at r1
    generalize statrsMedian m (List.drop _ (List.take g values')) = x' at r1
    generalize statrsMedian m (List.take _ (List.take g values)) = y at r2
    generalize statrsMedian m (List.take _ (List.take g values')) = y' at r2
    cases r1 with
    | panic p => rfl
    | diverge => rfl
    | ok ha =>
      cases r2 with
      | panic p => rfl
      | diverge => rfl
      | ok hb => exact congrArg Outcome.ok (ha.isBetter hb)

/-- The parameters of the mirrored run. -/
def Parameters.negated (p : Parameters F) : Parameters F :=
  { p with
    mode := .minimize
    termination := { p.termination with funTarget := p.termination.funTarget.map fun v => -v } }

theorem check_neg {m : List F → Outcome F} {t : TerminationCheck n F} {h' : History n F}
    (hmode : t.parameters.mode = .maximize) (hh : t.history.Mirrors h')
    (hm : ∀ l l', (∃ x ∈ l, Flt.isNaN x = true) →
      l ⊆ t.history.bestValues ∨ l ⊆ t.history.medianValues → List.Forall₂ Opposite l l' →
      Outcome.Rel Opposite (m l) (m l')) :
    ({ t with
        parameters := t.parameters.negated
        history := h'
        individuals := t.individuals.map (mapPt fun v => -v) } : TerminationCheck n F).check m =
      t.check m := by
  set t' : TerminationCheck n F := { t with
        parameters := t.parameters.negated
        history := h'
        individuals := t.individuals.map (mapPt fun v => -v) } with ht'
  have h1 : t'.funTarget = t.funTarget := by
    simp only [TerminationCheck.funTarget, ht', Parameters.negated, hmode]
    cases t.parameters.termination.funTarget with
    | none => rfl
    | some v =>
      simp only [Option.map_some, List.any_map, Function.comp_def, mapPt_value, isBetter_neg]
  have h2 : t'.tolFun = t.tolFun := by
    simp only [TerminationCheck.tolFun, ht', Parameters.negated, hh.bestValues,
      List.length_map, ← List.map_take, range_neg, List.map_map]
    have e : ((fun p : EvaluatedPoint n F => p.value) ∘ mapPt fun v => -v) =
        (fun v => -v) ∘ fun p => p.value := rfl
    rw [e, ← List.map_map, range_neg]
    have r1 := hh.firstMedian
    have r2 := hh.bestMedian
    generalize t.history.firstMedian = x at r1 ⊢
    generalize h'.firstMedian = x' at r1 ⊢
    generalize t.history.bestMedian = y at r2 ⊢
    generalize h'.bestMedian = y' at r2 ⊢
    cases r1 with
    | none => rfl
    | some ha =>
      cases r2 with
      | none => rfl
      | some hb =>
        simp only
        rw [sub_def, sub_def, (ha.add hb.neg).abs]
  have h3 : t'.tolStagnation m = t.tolStagnation m := by
    simp only [TerminationCheck.tolStagnation, ht', Parameters.negated, hh.bestValues,
      List.length_map, hmode, ← hh.medianValues.length_eq]
    simp only [didValuesRegress_neg (values := t.history.bestValues) (opposite_map _)
        fun l l' h h' => hm l l' h (.inl h'),
      didValuesRegress_neg (values := t.history.medianValues) hh.medianValues
        fun l l' h h' => hm l l' h (.inr h')]
  unfold TerminationCheck.check
  rw [h1, h2, h3]
  rfl

end

end Cmaes
