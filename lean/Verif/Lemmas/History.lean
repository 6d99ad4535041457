import Verif.Lemmas.Invariant
import Mathlib.Data.List.Induction

/-!
# Lemmas about the history
-/

set_option linter.unusedSectionVars false

namespace Cmaes
variable {n : Nat} {F R : Type} [Flt F]

theorem pushCapped_take (x : F) (l : List F) :
    pushCapped x (l.take maxHistoryLength) = (x :: l).take maxHistoryLength := by
  unfold pushCapped
  by_cases h : l.length < maxHistoryLength
  · rw [List.take_of_length_le h.le]
    simp only
    rw [if_neg (by simp only [List.length_cons]; omega), List.take_of_length_le]
    simp only [List.length_cons]; omega
  · rw [if_pos (by simp only [List.length_cons, List.length_take]; omega)]
    rw [List.dropLast_eq_take, List.length_cons, List.length_take,
      Nat.min_eq_left (by omega)]
    simp only [Nat.add_sub_cancel]
    have : maxHistoryLength = (maxHistoryLength - 1) + 1 := rfl
    conv_lhs => rw [this]
    conv_rhs => rw [this]
    rw [List.take_succ_cons, List.take_succ_cons, List.take_take]
    congr 2

/-- What `History::update` does. -/
theorem history_update_eq_ok {h h' : History n F} {mode : Mode}
    {inds : List (EvaluatedPoint n F)} (hu : h.update mode inds = .ok h') :
    ∃ b rest med, inds = b :: rest ∧ medianValue inds = .ok med ∧
      h'.bestValues = pushCapped b.value h.bestValues ∧
      h'.medianValues = pushCapped med h.medianValues ∧
      h'.firstMedian = h.firstMedian.or (some med) ∧
      h'.bestMedian = (match h.bestMedian with
        | some v => some (mode.chooseBest v med)
        | none => some med) ∧
      h'.currentBest = some ⟨b.point, b.value⟩ ∧
      h'.overallBest = (match h.overallBest with
        | some o => if mode.isBetter b.value o.value then some ⟨b.point, b.value⟩ else some o
        | none => some ⟨b.point, b.value⟩) := by
  simp only [History.update, Outcome.bind_eq_ok] at hu
  obtain ⟨b, hb, med, hm, hu⟩ := hu
  injection hu with hu
  cases inds with
  | nil => simp [Outcome.unwrap] at hb
  | cons b' rest =>
    simp only [List.getElem?_cons_zero, Outcome.unwrap_some, Outcome.ok.injEq] at hb
    subst hb
    subst hu
    exact ⟨b', rest, med, rfl, hm, rfl, rfl, rfl, rfl, rfl, rfl⟩

theorem History.after_append {mode : Mode} {h : History n F}
    {gs : List (List (EvaluatedPoint n F))} {g : List (EvaluatedPoint n F)} {h' : History n F} :
    h.after mode (gs ++ [g]) = .ok h' ↔
      ∃ h1, h.after mode gs = .ok h1 ∧ h1.update mode g = .ok h' := by
  unfold History.after
  rw [List.foldlM_append]
  simp only [List.foldlM_cons, List.foldlM_nil, Outcome.bind_eq_ok]
  constructor
  · rintro ⟨a, ha, b, hb, h⟩
    simp only [Outcome.pure_eq, Outcome.ok.injEq] at h
    subst h
    exact ⟨a, ha, hb⟩
  · rintro ⟨a, ha, hb⟩
    exact ⟨a, ha, h', hb, rfl⟩

/-- The best value of a sorted generation. -/
def bestOf (g : List (EvaluatedPoint n F)) : Option F := g.head?.map fun p => p.value

/-- Its median. -/
def medianOf (g : List (EvaluatedPoint n F)) : Option F :=
  match medianValue g with
  | .ok m => some m
  | _ => none

/-- The tracked values. -/
theorem after_values {mode : Mode} {gs : List (List (EvaluatedPoint n F))} {h : History n F}
    (hu : (History.new : History n F).after mode gs = .ok h) :
    (∀ g ∈ gs, (bestOf g).isSome ∧ (medianOf g).isSome) ∧
    h.bestValues = ((gs.filterMap bestOf).reverse).take maxHistoryLength ∧
    h.medianValues = ((gs.filterMap medianOf).reverse).take maxHistoryLength ∧
    h.firstMedian = (gs.filterMap medianOf).head? ∧
    h.bestMedian = (match gs.filterMap medianOf with
      | [] => none
      | m :: ms => some (ms.foldl mode.chooseBest m)) := by
  induction gs using List.reverseRecOn generalizing h with
  | nil =>
    simp only [History.after, List.foldlM_nil, Outcome.pure_eq, Outcome.ok.injEq] at hu
    subst hu
    simp [History.new]
  | append_singleton gs g ih =>
    obtain ⟨h1, h2, h3⟩ := History.after_append.mp hu
    obtain ⟨i1, i2, i3, i4, i5⟩ := ih h2
    obtain ⟨b, rest, med, hb, hm, e1, e2, e3, e4, e5, e6⟩ := history_update_eq_ok h3
    have hbo : bestOf g = some b.value := by simp [bestOf, hb]
    have hmo : medianOf g = some med := by simp [medianOf, hm]
    refine ⟨?_, ?_, ?_, ?_, ?_⟩
    · intro g' hg'
      rcases List.mem_append.mp hg' with hg' | hg'
      · exact i1 g' hg'
      · rw [List.mem_singleton] at hg'
        subst hg'
        simp [hbo, hmo]
    · rw [e1, i2, pushCapped_take]
      simp [hbo]
    · rw [e2, i3, pushCapped_take]
      simp [hmo]
    · rw [e3, i4]
      simp [hmo]
    · rw [e4, i5]
      simp only [List.filterMap_append, List.filterMap_cons, hmo, List.filterMap_nil]
      cases gs.filterMap medianOf with
      | nil => simp
      | cons m ms => simp [List.foldl_append]

variable [FltLaws F]

/-- The tracked individuals. -/
theorem after_best {mode : Mode} {gs : List (List (EvaluatedPoint n F))} {h : History n F}
    (hs : ∀ g ∈ gs, g.Pairwise (fun a b => mode.key a.value ≤ mode.key b.value))
    (hn : ∀ g ∈ gs, ∀ p ∈ g, Flt.isNaN p.value = false)
    (hu : (History.new : History n F).after mode gs = .ok h) :
    (gs = [] ∧ h.currentBest = none ∧ h.overallBest = none) ∨
    (∃ gs' b rest, gs = gs' ++ [b :: rest] ∧ h.currentBest = some ⟨b.point, b.value⟩) ∧
    ∃ g1 b rest g2, gs = g1 ++ (b :: rest) :: g2 ∧
      h.overallBest = some ⟨b.point, b.value⟩ ∧
      (∀ g ∈ g1, ∀ p ∈ g, mode.key b.value < mode.key p.value) ∧
      (∀ g ∈ g2, ∀ p ∈ g, mode.key b.value ≤ mode.key p.value) := by
  induction gs using List.reverseRecOn generalizing h with
  | nil =>
    simp only [History.after, List.foldlM_nil, Outcome.pure_eq, Outcome.ok.injEq] at hu
    subst hu
    simp [History.new]
  | append_singleton gs g ih =>
    right
    obtain ⟨h1, h2, h3⟩ := History.after_append.mp hu
    have ih := ih (fun g hg => hs g (by simp [hg])) (fun g hg => hn g (by simp [hg])) h2
    obtain ⟨b, rest, med, hb, hm, e1, e2, e3, e4, e5, e6⟩ := history_update_eq_ok h3
    subst hb
    have hbn : Flt.isNaN b.value = false := hn (b :: rest) (by simp) b (by simp)
    refine ⟨⟨gs, b, rest, rfl, e5⟩, ?_⟩
    rcases ih with ⟨rfl, _, ho⟩ | ⟨_, g1, b0, rest0, g2, hg, ho, h4, h5⟩
    · rw [ho] at e6
      exact ⟨[], b, rest, [], by simp, e6, by simp, by simp⟩
    · rw [ho] at e6
      have hb0n : Flt.isNaN b0.value = false :=
        hn (b0 :: rest0) (by simp [hg]) b0 (by simp)
      have hsb : ∀ p ∈ b :: rest, mode.key b.value ≤ mode.key p.value := by
        intro p hp
        have := hs (b :: rest) (by simp)
        rcases List.mem_cons.mp hp with rfl | hp
        · exact le_refl _
        · exact (List.pairwise_cons.mp this).1 p hp
      have hsb0 : ∀ p ∈ b0 :: rest0, mode.key b0.value ≤ mode.key p.value := by
        intro p hp
        have := hs (b0 :: rest0) (by simp [hg])
        rcases List.mem_cons.mp hp with rfl | hp
        · exact le_refl _
        · exact (List.pairwise_cons.mp this).1 p hp
      by_cases hbet : mode.isBetter b.value b0.value = true
      · simp only [hbet, if_true] at e6
        have hlt := (Mode.isBetter_iff.mp hbet).2.2
        refine ⟨gs, b, rest, [], by simp, e6, ?_, by simp⟩
        intro g' hg' p hp
        rw [hg] at hg'
        rcases List.mem_append.mp hg' with hg' | hg'
        · exact hlt.trans (h4 g' hg' p hp)
        · rcases List.mem_cons.mp hg' with rfl | hg'
          · exact hlt.trans_le (hsb0 p hp)
          · exact hlt.trans_le (h5 g' hg' p hp)
      · rw [Bool.not_eq_true] at hbet
        simp only [hbet, Bool.false_eq_true, if_false] at e6
        have hle := (Mode.not_isBetter_iff hbn hb0n).mp hbet
        refine ⟨g1, b0, rest0, g2 ++ [b :: rest], by simp [hg], e6, h4, ?_⟩
        intro g' hg' p hp
        rcases List.mem_append.mp hg' with hg' | hg'
        · exact h5 g' hg' p hp
        · rw [List.mem_singleton] at hg'
          subst hg'
          exact hle.trans (hsb p hp)

end Cmaes
