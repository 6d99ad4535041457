import Verif.Model.Restart

/-!
# Lemmas about comparisons
-/

namespace Cmaes
variable {F : Type} [Flt F] [FltLaws F]
open FltLaws

theorem lt_eq_false_of_isNaN_left {a b : F} (h : Flt.isNaN a = true) : Flt.lt a b = false := by
  rw [← Bool.not_eq_true, lt_iff]; simp [h]
theorem lt_eq_false_of_isNaN_right {a b : F} (h : Flt.isNaN b = true) : Flt.lt a b = false := by
  rw [← Bool.not_eq_true, lt_iff]; simp [h]

theorem lt_eq_decide {a b : F} (ha : Flt.isNaN a = false) (hb : Flt.isNaN b = false) :
    Flt.lt a b = decide (val a < val b) := by
  rw [Bool.eq_iff_iff, lt_iff]; simp [ha, hb]
theorem le_eq_decide {a b : F} (ha : Flt.isNaN a = false) (hb : Flt.isNaN b = false) :
    Flt.le a b = decide (val a ≤ val b) := by
  rw [Bool.eq_iff_iff, le_iff]; simp [ha, hb]
theorem feq_eq_decide {a b : F} (ha : Flt.isNaN a = false) (hb : Flt.isNaN b = false) :
    Flt.feq a b = decide (val a = val b) := by
  rw [Bool.eq_iff_iff, feq_iff]; simp [ha, hb]

theorem partialCmp_eq_lt_iff {a b : F} :
    partialCmp a b = .lt ↔ Flt.isNaN a = false ∧ Flt.isNaN b = false ∧ val a < val b := by
  rw [← lt_iff]
  unfold partialCmp Flt.partialCmp?
  cases h : Flt.lt a b <;> simp
  cases Flt.lt b a <;> simp
  cases Flt.feq a b <;> simp

theorem partialCmp_eq_gt_iff {a b : F} :
    partialCmp a b = .gt ↔ Flt.isNaN a = false ∧ Flt.isNaN b = false ∧ val b < val a := by
  have h1 : Flt.lt b a = true ↔ Flt.isNaN a = false ∧ Flt.isNaN b = false ∧ val b < val a := by
    rw [lt_iff]; tauto
  rw [← h1]
  unfold partialCmp Flt.partialCmp?
  cases h : Flt.lt a b <;> simp
  · cases Flt.lt b a <;> simp
    cases Flt.feq a b <;> simp
  · rw [lt_iff] at h
    rw [← Bool.not_eq_true, lt_iff]
    intro h'
    exact absurd h.2.2 (not_lt.mpr h'.2.2.le)

/-- The quantity that is minimised. -/
noncomputable def Mode.key (m : Mode) (a : F) : EReal :=
  match m with
  | .minimize => val a
  | .maximize => -val a

theorem Mode.isBetter_iff {m : Mode} {a b : F} : m.isBetter a b = true ↔
    Flt.isNaN a = false ∧ Flt.isNaN b = false ∧ m.key a < m.key b := by
  cases m
  · simp [Mode.isBetter, Mode.key, lt_iff]
  · simp only [Mode.isBetter, Mode.key, lt_iff, EReal.neg_lt_neg_iff]
    tauto

theorem Mode.isBetter_eq_decide {m : Mode} {a b : F} (ha : Flt.isNaN a = false)
    (hb : Flt.isNaN b = false) : m.isBetter a b = decide (m.key a < m.key b) := by
  rw [Bool.eq_iff_iff, Mode.isBetter_iff]; simp [ha, hb]

theorem Mode.sortCmp_ne_gt {m : Mode} {a b : F} (ha : Flt.isNaN a = false)
    (hb : Flt.isNaN b = false) : (m.sortCmp a b != .gt) = decide (m.key a ≤ m.key b) := by
  rw [Bool.eq_iff_iff, decide_eq_true_eq]
  cases m
  · simp [Mode.sortCmp, Mode.key, partialCmp_eq_gt_iff, ha, hb]
  · simp [Mode.sortCmp, Mode.key, partialCmp_eq_gt_iff, ha, hb]

/-- Not better in either direction means equal. -/
theorem Mode.not_isBetter_iff {m : Mode} {a b : F} (ha : Flt.isNaN a = false)
    (hb : Flt.isNaN b = false) : m.isBetter a b = false ↔ m.key b ≤ m.key a := by
  rw [Mode.isBetter_eq_decide ha hb]; simp

theorem Mode.key_val {m : Mode} {a b : F} (h : m.key a = m.key b) : val a = val b := by
  cases m
  · exact h
  · exact neg_injective h

/-! ### Equality up to the sign of zero -/

/-- The number denoted by a value; none for NaN. -/
noncomputable def num (a : F) : Option EReal := if Flt.isNaN a then none else some (val a)

theorem num_eq {a b : F} (ha : Flt.isNaN a = false) (hb : Flt.isNaN b = false) (h : val a = val b) :
    num a = num b := by simp [num, ha, hb, h]

theorem num_some {a : F} (ha : Flt.isNaN a = false) : num a = some (val a) := by simp [num, ha]

theorem isNaN_of_num {a b : F} (h : num a = num b) : Flt.isNaN a = Flt.isNaN b := by
  unfold num at h
  cases ha : Flt.isNaN a <;> cases hb : Flt.isNaN b <;> simp [ha, hb] at h ⊢

theorem val_of_num {a b : F} (h : num a = num b) (ha : Flt.isNaN a = false) : val a = val b := by
  have hb := (isNaN_of_num h).symm.trans ha
  rw [num_some ha, num_some hb] at h
  injection h

/-- Values that denote the same number are equal, unless it is zero. -/
theorem eq_of_num {a b : F} (h : num a = num b) :
    a = b ∨ (Flt.isNaN a = false ∧ Flt.isNaN b = false ∧ val a = 0 ∧ val b = 0) := by
  have hb := isNaN_of_num h
  cases ha : Flt.isNaN a with
  | true => rw [ha] at hb; exact .inl (by rw [isNaN_eq ha, isNaN_eq hb.symm])
  | false =>
    rw [ha] at hb
    have hv := val_of_num h ha
    by_cases h0 : val a = 0
    · exact .inr ⟨rfl, hb.symm, h0, hv ▸ h0⟩
    · exact .inl (val_inj_ne ha hb.symm hv h0)

theorem lt_congr_num {a a' b b' : F} (h : num a = num a') (h' : num b = num b') :
    Flt.lt a b = Flt.lt a' b' := by
  rw [Bool.eq_iff_iff, lt_iff, lt_iff, isNaN_of_num h, isNaN_of_num h']
  refine and_congr_right fun ha => and_congr_right fun hb => ?_
  rw [val_of_num h ((isNaN_of_num h).trans ha), val_of_num h' ((isNaN_of_num h').trans hb)]

theorem isBetter_congr_num {m : Mode} {a a' b b' : F} (h : num a = num a') (h' : num b = num b') :
    m.isBetter a b = m.isBetter a' b' := by
  cases m
  · exact lt_congr_num h h'
  · exact lt_congr_num h' h

theorem neg_congr_num {a a' : F} (h : num a = num a') : num (-a) = num (-a') := by
  unfold num at h ⊢
  rw [isNaN_neg, isNaN_neg, val_neg, val_neg]
  cases ha : Flt.isNaN a <;> cases hb : Flt.isNaN a' <;> simp [ha, hb] at h ⊢
  exact h

theorem add_congr_left_num {a a' b : F} (h : num a = num a') : num (a + b) = num (a' + b) := by
  rcases eq_of_num h with rfl | ⟨h1, h2, h3, h4⟩
  · rfl
  have hn : Flt.isNaN (a + b) = Flt.isNaN (a' + b) := by
    rw [Bool.eq_iff_iff, isNaN_add, isNaN_add, h1, h2, h3, h4]
  cases hx : Flt.isNaN (a + b) with
  | true => rw [hx] at hn; simp [num, hx, ← hn]
  | false =>
    have hy := hn.symm.trans hx
    exact num_eq hx hy (le_antisymm (add_le_add_right hx hy (by rw [h3, h4]))
      (add_le_add_right hy hx (by rw [h3, h4])))

theorem add_congr_num {a a' b b' : F} (h : num a = num a') (h' : num b = num b') :
    num (a + b) = num (a' + b') := by
  rw [add_congr_left_num h, FltLaws.add_comm a', FltLaws.add_comm a', add_congr_left_num h']

theorem sub_congr_num {a a' b b' : F} (h : num a = num a') (h' : num b = num b') :
    num (a - b) = num (a' - b') := by
  rw [sub_def, sub_def]
  exact add_congr_num h (neg_congr_num h')

theorem half_congr_num {a a' : F} (h : num a = num a') : num (a / 2) = num (a' / 2) := by
  rcases eq_of_num h with rfl | ⟨h1, h2, h3, h4⟩
  · rfl
  · exact num_eq ((isNaN_half a).trans h1) ((isNaN_half a').trans h2)
      (by rw [half_zero h1 h3, half_zero h2 h4])

theorem mul_congr_num {a b b' : F} (h : num b = num b') : num (a * b) = num (a * b') := by
  rcases eq_of_num h with rfl | ⟨h1, h2, h3, h4⟩
  · rfl
  · obtain ⟨e1, e2⟩ := mul_zeros (a := a) h1 h2 h3 h4
    unfold num; rw [e1, e2]

theorem div_congr_num {a b b' : F} (h : num b = num b') : num (b / a) = num (b' / a) := by
  rcases eq_of_num h with rfl | ⟨h1, h2, h3, h4⟩
  · rfl
  · obtain ⟨e1, e2⟩ := div_zeros (a := a) h1 h2 h3 h4
    unfold num; rw [e1, e2]

theorem abs_congr_num {a a' : F} (h : num a = num a') : Flt.abs a = Flt.abs a' := by
  rcases eq_of_num h with rfl | ⟨h1, h2, h3, h4⟩
  · rfl
  · rw [FltLaws.abs_zero h1 h3, FltLaws.abs_zero h2 h4]

theorem le_antisymm_num {a b : F} (h : Flt.le a b = true) (h' : Flt.le b a = true) :
    num a = num b := by
  rw [le_iff] at h h'
  exact num_eq h.1 h.2.1 (le_antisymm h.2.2 h'.2.2)

end Cmaes
