import Verif.Lemmas.Mirror
import Verif.Spec.Termination

/-!
# The spread and the medians
-/

set_option linter.unusedSectionVars false

namespace Cmaes
variable {n : Nat} {F R : Type} [Flt F] [FltLaws F]
open FltLaws

theorem le_of_val {a b : F} (ha : Flt.isNaN a = false) (hb : Flt.isNaN b = false)
    (h : val a ≤ val b) : Flt.le a b = true := le_iff.mpr ⟨ha, hb, h⟩

theorem rangeLoop_none {mn mx : F} {l : List F} :
    rangeLoop mn mx l = none ↔ ∃ x ∈ l, Flt.isNaN x = true := by
  induction l generalizing mn mx with
  | nil => simp [rangeLoop]
  | cons x l ih =>
    simp only [rangeLoop]
    split
    · rename_i h
      simp [h]
    · rename_i h
      simp [ih, h]

/-- `range` refuses exactly the empty list and lists with a NaN after the first element. -/
theorem range_none {l : List F} :
    range l = none ↔ l = [] ∨ ∃ x ∈ l.tail, Flt.isNaN x = true := by
  cases l with
  | nil => simp [range]
  | cons x l => simp [range, rangeLoop_none]

theorem rangeLoop_spec {l pre : List F} {mn mx d : F} (hmn : mn ∈ pre) (hmx : mx ∈ pre)
    (hp : ∀ x ∈ pre, Flt.isNaN x = false) (hall : ∀ x ∈ pre, val mn ≤ val x ∧ val x ≤ val mx)
    (h : rangeLoop mn mx l = some d) :
    ∃ mx' ∈ pre ++ l, ∃ mn' ∈ pre ++ l,
      (∀ x ∈ pre ++ l, Flt.isNaN x = false ∧ val mn' ≤ val x ∧ val x ≤ val mx') ∧
        d = mx' - mn' := by
  induction l generalizing pre mn mx with
  | nil =>
    simp only [rangeLoop, Option.some.injEq] at h
    exact ⟨mx, by simpa using hmx, mn, by simpa using hmn,
      by simpa using fun x hx => ⟨hp x hx, hall x hx⟩, h.symm⟩
  | cons x l ih =>
    simp only [rangeLoop] at h
    split at h
    · simp at h
    · rename_i hx
      rw [Bool.not_eq_true] at hx
      have hc1 : partialCmp x mn = .lt ↔ val x < val mn := by
        rw [partialCmp_eq_lt_iff]; simp [hx, hp mn hmn]
      have hc2 : partialCmp x mx = .gt ↔ val mx < val x := by
        rw [partialCmp_eq_gt_iff]; simp [hx, hp mx hmx]
      simp only [hc1, hc2] at h
      have h1 := hall mn hmn
      have := ih (pre := pre ++ [x])
        (mn := if val x < val mn then x else mn) (mx := if val mx < val x then x else mx)
        (by split <;> simp [hmn]) (by split <;> simp [hmx])
        (by
          intro y hy
          rcases List.mem_append.mp hy with hy | hy
          · exact hp y hy
          · rw [List.mem_singleton] at hy; exact hy ▸ hx)
        (by
          intro y hy
          rcases List.mem_append.mp hy with hy | hy
          · constructor
            · split
              · rename_i h'; exact h'.le.trans (hall y hy).1
              · exact (hall y hy).1
            · split
              · rename_i h'; exact (hall y hy).2.trans h'.le
              · exact (hall y hy).2
          · rw [List.mem_singleton] at hy
            subst hy
            constructor
            · split
              · exact le_refl _
              · rename_i h'; exact not_lt.mp h'
            · split
              · exact le_refl _
              · rename_i h'; exact not_lt.mp h') h
      simpa using this

/-- The spread of a list without NaN. -/
theorem range_spec {l : List F} {d : F} (hn : ∀ x ∈ l, Flt.isNaN x = false)
    (h : range l = some d) : IsSpread l d := by
  cases l with
  | nil => simp [range] at h
  | cons x l =>
    have hx := hn x (by simp)
    obtain ⟨mx, h1, mn, h2, h3, h4⟩ := rangeLoop_spec (pre := [x]) (by simp) (by simp)
      (by simpa using hx) (by simp) h
    refine ⟨mx, by simpa using h1, mn, by simpa using h2, fun y hy => ?_, h4⟩
    have hy' := h3 y (by simpa using hy)
    exact ⟨le_of_val (h3 mn h2).1 hy'.1 hy'.2.1, le_of_val hy'.1 (h3 mx h1).1 hy'.2.2⟩

/-- A member of one of two lists that denote the same numbers has a counterpart in the other. -/
theorem mem_of_nums {l l' : List F} (hl : l.map num = l'.map num) {x : F} (hx : x ∈ l) :
    ∃ y ∈ l', num y = num x := by
  have : num x ∈ l'.map num := hl ▸ List.mem_map_of_mem hx
  simpa using this

/-- Lists that denote the same numbers have spreads that denote the same number. -/
theorem IsSpread.unique {l l' : List F} {d d' : F} (hl : l.map num = l'.map num)
    (h : IsSpread l d) (h' : IsSpread l' d') : num d = num d' := by
  obtain ⟨mx, h1, mn, h2, h3, rfl⟩ := h
  obtain ⟨mx', h1', mn', h2', h3', rfl⟩ := h'
  have e1 : num mx = num mx' := by
    obtain ⟨y, hy, ey⟩ := mem_of_nums hl h1
    obtain ⟨z, hz, ez⟩ := mem_of_nums hl.symm h1'
    have a := le_iff.mp (h3 z hz).2
    have b := le_iff.mp (h3' y hy).2
    rw [val_of_num ez a.1] at a
    rw [val_of_num ey b.1] at b
    exact num_eq a.2.1 b.2.1 (le_antisymm b.2.2 a.2.2)
  have e2 : num mn = num mn' := by
    obtain ⟨y, hy, ey⟩ := mem_of_nums hl h2
    obtain ⟨z, hz, ez⟩ := mem_of_nums hl.symm h2'
    have a := le_iff.mp (h3 z hz).1
    have b := le_iff.mp (h3' y hy).1
    rw [val_of_num ez a.2.1] at a
    rw [val_of_num ey b.2.1] at b
    exact num_eq a.1 b.1 (le_antisymm a.2.2 b.2.2)
  exact sub_congr_num e1 e2

/-- The spread of a list with an infinite element is below no tolerance. -/
theorem IsSpread.infinite {l : List F} {d : F} (h : IsSpread l d)
    (hi : ∃ x ∈ l, Flt.isInf x = true) (tol : F) : Flt.lt d tol = false := by
  obtain ⟨mx, h1, mn, h2, h3, rfl⟩ := h
  obtain ⟨x, hx, hinf⟩ := hi
  have hx' := h3 x hx
  have hmn := le_iff.mp hx'.1
  have hmx := le_iff.mp hx'.2
  rw [← Bool.not_eq_true, lt_iff]
  rintro ⟨hd, _, hlt⟩
  rw [sub_def] at hd hlt
  rcases (isInf_iff.mp hinf).2 with hv | hv
  · have e : val mx = ⊤ := top_le_iff.mp (hv ▸ hmx.2.2)
    rw [add_top hmx.2.1 e hd] at hlt
    exact not_top_lt hlt
  · have e : val (-mn) = ⊤ := by
      have e' : val mn = ⊥ := le_bot_iff.mp (hv ▸ hmn.2.2)
      rw [val_neg, e']; rfl
    rw [FltLaws.add_comm] at hd hlt
    rw [add_top (by rw [isNaN_neg]; exact hmn.1) e hd] at hlt
    exact not_top_lt hlt

/-- A spread is never negative. -/
theorem IsSpread.nonneg {l : List F} {d : F} (h : IsSpread l d) (hd : Flt.isNaN d = false) :
    0 ≤ val d := by
  obtain ⟨mx, h1, mn, h2, h3, rfl⟩ := h
  have hle := le_iff.mp (h3 mn h2).2
  rw [sub_def] at hd ⊢
  by_cases hs : Flt.isNaN (mn + -mn) = true
  · -- an infinite minimum: the sum is then infinite
    rw [isNaN_add] at hs
    rw [isNaN_neg] at hs
    rcases hs with hs | hs | ⟨hs, _⟩ | ⟨hs, _⟩
    · simp [hle.1] at hs
    · simp [hle.1] at hs
    · exfalso
      have : val mx = ⊤ := top_le_iff.mp (hs ▸ hle.2.2)
      rw [← Bool.not_eq_true, isNaN_add] at hd
      exact hd (.inr (.inr (.inl ⟨this, by rw [val_neg, hs]; rfl⟩)))
    · have e : val (-mn) = ⊤ := by rw [val_neg, hs]; rfl
      rw [FltLaws.add_comm] at hd ⊢
      rw [add_top (by rw [isNaN_neg]; exact hle.1) e hd]
      exact le_top
  · rw [Bool.not_eq_true] at hs
    rw [← add_neg_self hs]
    exact add_le_add_right hs hd hle.2.2

/-! ### Medians -/

theorem getElem?_of_unwrap {α : Type} {p : Panic} {x : Option α} {a : α}
    (h : Outcome.unwrap p x = .ok a) : x = some a := by
  cases x with
  | none => simp [Outcome.unwrap] at h
  | some y => simpa using h

/-- The median computed by `statrs`. -/
theorem statrsMedian_isMedian {med : List F → Outcome F} {l : List F} {m : F}
    (hn : ∀ x ∈ l, Flt.isNaN x = false) (h0 : l ≠ []) (h : statrsMedian med l = .ok m) :
    IsMedian l m := by
  unfold statrsMedian at h
  rw [if_neg (by simpa using hn)] at h
  simp only [List.length_eq_zero_iff, h0, if_false] at h
  set s := stableSort (fun a b => Flt.le a b) l with hs
  have hp : s.Perm l := stableSort_perm _ _
  have hsort : s.Pairwise fun a b => Flt.le a b = true := by
    refine List.Pairwise.imp_of_mem ?_ (stableSort_le_eq hn)
    intro a b ha hb hab
    exact le_of_val (hn a (hp.mem_iff.mp ha)) (hn b (hp.mem_iff.mp hb)) hab
  refine ⟨s, hp, hsort, fun h1 => ?_, fun h1 => ?_⟩
  · rw [if_pos h1] at h
    exact getElem?_of_unwrap h
  · rw [if_neg (by omega)] at h
    simp only [Outcome.bind_eq_ok] at h
    obtain ⟨a, ha, b, hb, h⟩ := h
    injection h with h
    exact ⟨a, b, getElem?_of_unwrap ha, getElem?_of_unwrap hb, h.symm⟩

/-- The `statrs` median of numbers never panics. -/
theorem statrsMedian_ok {med : List F → Outcome F} {l : List F}
    (hn : ∀ x ∈ l, Flt.isNaN x = false) : ∃ m, statrsMedian med l = .ok m := by
  unfold statrsMedian
  rw [if_neg (by simpa using hn)]
  have hlen : (stableSort (fun a b => Flt.le a b) l).length = l.length :=
    (stableSort_perm _ _).length_eq
  by_cases h0 : l.length = 0
  · exact ⟨Flt.nan, by simp [h0]⟩
  · simp only [h0, if_false]
    have h2 : l.length / 2 < (stableSort (fun a b => Flt.le a b) l).length := by omega
    have h3 : l.length / 2 - 1 < (stableSort (fun a b => Flt.le a b) l).length := by omega
    rw [List.getElem?_eq_getElem h2, List.getElem?_eq_getElem h3]
    by_cases h1 : l.length % 2 = 1
    · exact ⟨_, by rw [if_pos h1]; rfl⟩
    · exact ⟨_, by rw [if_neg h1]; rfl⟩

/-- The order of the numbers that values denote. -/
theorem le_of_le_nums {a b : F} (h : Flt.le a b = true) :
    ∃ x y : EReal, num a = some x ∧ num b = some y ∧ x ≤ y := by
  rw [le_iff] at h
  exact ⟨_, _, num_some h.1, num_some h.2.1, h.2.2⟩

/-- Lists that denote the same numbers have medians that denote the same number. -/
theorem IsMedian.unique {l l' : List F} {m m' : F} (hl : l.map num = l'.map num)
    (h : IsMedian l m) (h' : IsMedian l' m') : num m = num m' := by
  obtain ⟨s, hp, hs, h1, h2⟩ := h
  obtain ⟨s', hp', hs', h1', h2'⟩ := h'
  have hlen : l.length = l'.length := by simpa using congrArg List.length hl
  have e : s.map num = s'.map num := by
    refine List.Perm.eq_of_pairwise
      (le := fun a b : Option EReal => ∃ x y : EReal, a = some x ∧ b = some y ∧ x ≤ y) ?_
      (List.pairwise_map.mpr (hs.imp le_of_le_nums))
      (List.pairwise_map.mpr (hs'.imp le_of_le_nums))
      ((hp.map num).trans (hl ▸ (hp'.map num).symm))
    rintro a b _ _ ⟨x, y, rfl, rfl, hxy⟩ ⟨x', y', hx', hy', hyx⟩
    injection hx' with hx'
    injection hy' with hy'
    subst hx' hy'
    exact congrArg some (le_antisymm hxy hyx)
  have get : ∀ {i : ℕ} {a a' : F}, s[i]? = some a → s'[i]? = some a' → num a = num a' := by
    intro i a a' ha ha'
    have := congrArg (fun t => t[i]?) e
    simpa [ha, ha'] using this
  rcases Nat.mod_two_eq_zero_or_one l.length with h0 | h0
  · obtain ⟨a, b, ha, hb, rfl⟩ := h2 h0
    obtain ⟨a', b', ha', hb', rfl⟩ := h2' (hlen ▸ h0)
    rw [← hlen] at ha' hb'
    exact half_congr_num (add_congr_num (get ha ha') (get hb hb'))
  · exact get (h1 h0) (hlen ▸ h1' (hlen ▸ h0))

/-- The median of a generation. -/
theorem medianValue_isMedian {mode : Mode} {inds : List (EvaluatedPoint n F)} {l : List F} {m : F}
    (hn : ∀ p ∈ inds, Flt.isNaN p.value = false)
    (hsort : inds.Pairwise (fun a b => mode.key a.value ≤ mode.key b.value))
    (hperm : l.Perm (inds.map fun p => p.value)) (h : medianValue inds = .ok m) :
    IsMedian l m := by
  have hlen : l.length = inds.length := by rw [hperm.length_eq, List.length_map]
  -- the middle elements of the sorted generation
  have key : (inds.length % 2 = 1 → ∃ a, inds[inds.length / 2]? = some a ∧ m = a.value) ∧
      (inds.length % 2 = 0 → inds.length / 2 ≠ 0 ∧ ∃ a b, inds[inds.length / 2 - 1]? = some a ∧
        inds[inds.length / 2]? = some b ∧ m = (a.value + b.value) / 2) := by
    unfold medianValue at h
    constructor
    · intro h1
      rw [if_neg (by omega)] at h
      simp only [Outcome.bind_eq_ok] at h
      obtain ⟨a, ha, h⟩ := h
      injection h with h
      exact ⟨a, getElem?_of_unwrap ha, h.symm⟩
    · intro h1
      rw [if_pos h1] at h
      split at h
      · simp at h
      · rename_i h2
        simp only [Outcome.bind_eq_ok] at h
        obtain ⟨a, ha, b, hb, h⟩ := h
        injection h with h
        exact ⟨h2, a, b, getElem?_of_unwrap ha, getElem?_of_unwrap hb, h.symm⟩
  cases mode with
  | minimize =>
    refine ⟨inds.map fun p => p.value, hperm.symm, ?_, ?_, ?_⟩
    · rw [List.pairwise_map]
      exact List.Pairwise.imp_of_mem (fun ha hb hab => le_of_val (hn _ ha) (hn _ hb) hab) hsort
    · intro h1
      rw [hlen] at h1 ⊢
      obtain ⟨a, ha, rfl⟩ := key.1 h1
      simp [ha]
    · intro h1
      rw [hlen] at h1 ⊢
      obtain ⟨_, a, b, ha, hb, rfl⟩ := key.2 h1
      exact ⟨a.value, b.value, by simp [ha], by simp [hb], rfl⟩
  | maximize =>
    refine ⟨(inds.map fun p => p.value).reverse,
      (List.reverse_perm _).trans hperm.symm, ?_, ?_, ?_⟩
    · rw [List.pairwise_reverse, List.pairwise_map]
      refine List.Pairwise.imp_of_mem (fun ha hb hab => le_of_val (hn _ hb) (hn _ ha) ?_) hsort
      simpa [Mode.key] using hab
    · intro h1
      rw [hlen] at h1 ⊢
      obtain ⟨a, ha, rfl⟩ := key.1 h1
      rw [List.getElem?_reverse (by rw [List.length_map]; omega), List.length_map,
        show inds.length - 1 - inds.length / 2 = inds.length / 2 by omega]
      simp [ha]
    · intro h1
      rw [hlen] at h1 ⊢
      obtain ⟨h2, a, b, ha, hb, rfl⟩ := key.2 h1
      rw [List.getElem?_reverse (by rw [List.length_map]; omega),
        List.getElem?_reverse (by rw [List.length_map]; omega), List.length_map,
        show inds.length - 1 - (inds.length / 2 - 1) = inds.length / 2 by omega,
        show inds.length - 1 - inds.length / 2 = inds.length / 2 - 1 by omega]
      exact ⟨b.value, a.value, by simp [hb], by simp [ha], by rw [FltLaws.add_comm]⟩

end Cmaes
