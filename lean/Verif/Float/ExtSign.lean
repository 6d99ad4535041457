import Verif.Float.Bin64
import Verif.Spec.Sane

/-!
# Signs of products and quotients, and propagation of NaN
-/

set_option linter.unusedSectionVars false

namespace Cmaes
namespace Ext
variable {α K : Type} [Field K] [LinearOrder K] [IsStrictOrderedRing K] [FloorRing K] [Fmt α K]
  [LawfulFmt α K]

theorem rnd_nat {k : Nat} (hk : k ≤ 2 ^ 53) : ∃ a : α, Fmt.toK a = (k : K) ∧
    (Fmt.rnd (k : K) : Ext α) = .fin a := by
  obtain ⟨a, ha⟩ := LawfulFmt.exact_nat (α := α) (K := K) k hk
  exact ⟨a, ha, by rw [← ha]; exact LawfulFmt.rnd_toK a⟩

theorem val_rnd_nat {k : Nat} (hk : k ≤ 2 ^ 53) :
    (Fmt.rnd (k : K) : Ext α).val = ((k : ℝ) : EReal) := by
  obtain ⟨a, ha, h⟩ := rnd_nat (α := α) hk
  rw [h, val_fin, ha, map_natCast]

theorem val_rnd_le {k : Nat} (hk : k ≤ 2 ^ 53) {x : K} (hx : (k : K) ≤ x) :
    ((k : ℝ) : EReal) ≤ (Fmt.rnd x : Ext α).val := by
  rw [← val_rnd_nat (α := α) (K := K) hk]
  exact LawfulFmt.rnd_mono hx

theorem val_rnd_nonneg {x : K} (hx : 0 ≤ x) : 0 ≤ (Fmt.rnd x : Ext α).val := by
  have := val_rnd_le (α := α) (k := 0) (by norm_num) (x := x) (by simpa using hx)
  simpa using this

theorem val_fin_nonneg {a : α} : 0 ≤ (fin a : Ext α).val ↔ (0 : K) ≤ Fmt.toK a := by
  rw [val_fin, EReal.coe_nonneg, ← map_zero (LawfulFmt.emb α), emb_le]

theorem val_fin_pos {a : α} : 0 < (fin a : Ext α).val ↔ (0 : K) < Fmt.toK a := by
  rw [val_fin, EReal.coe_pos, ← map_zero (LawfulFmt.emb α), emb_lt]

theorem val_sinf (b : Bool) : (sinf b : Ext α).val = if b then ⊤ else ⊥ := by
  cases b <;> rfl

theorem infMul_nonneg {b : K} (hb : 0 ≤ b) : 0 ≤ (infMul true b : Ext α).val := by
  unfold infMul
  split
  · simp
  · rename_i h
    rw [decide_eq_true (lt_of_le_of_ne hb (Ne.symm h))]
    simp [val_sinf]

/-- Products of nonnegative numbers are nonnegative (rounding included). -/
theorem mul_nonneg' {a b : Ext α} (ha : 0 ≤ a.val) (hb : 0 ≤ b.val) : 0 ≤ (mul a b).val := by
  cases a <;> cases b <;>
    first
      | exact le_refl (0 : EReal)
      | exact absurd ha (not_le.mpr EReal.bot_lt_zero)
      | exact absurd hb (not_le.mpr EReal.bot_lt_zero)
      | exact (le_top : (0 : EReal) ≤ ⊤)
      | exact infMul_nonneg (val_fin_nonneg.mp hb)
      | exact infMul_nonneg (val_fin_nonneg.mp ha)
      | exact val_rnd_nonneg (mul_nonneg (val_fin_nonneg.mp ha) (val_fin_nonneg.mp hb))

theorem isNaN_mul_left {a b : Ext α} (h : isNaN a = true) : isNaN (mul a b) = true := by
  cases a <;> simp [isNaN] at h
  rfl

theorem isNaN_mul_right {a b : Ext α} (h : isNaN b = true) : isNaN (mul a b) = true := by
  cases b <;> simp [isNaN] at h
  cases a <;> rfl

theorem isNaN_div_left {a b : Ext α} (h : isNaN a = true) : isNaN (div a b) = true := by
  cases a <;> simp [isNaN] at h
  rfl

theorem isNaN_add_left' {a b : Ext α} (h : isNaN a = true) : isNaN (add a b) = true := by
  cases a <;> simp [isNaN] at h
  rfl

theorem isNaN_add_right' {a b : Ext α} (h : isNaN b = true) : isNaN (add a b) = true := by
  cases b <;> simp [isNaN] at h
  cases a <;> rfl

/-- The product with zero is zero or NaN. -/
theorem mul_zero' {a b : Ext α} (h : a.val = 0) : (mul a b).val = 0 := by
  have hrnd : (Fmt.rnd (0 : K) : Ext α).val = 0 := by
    have := val_rnd_nat (α := α) (K := K) (k := 0) (by norm_num)
    simpa using this
  cases a with
  | nan => rfl
  | ninf => exact absurd h (by simp)
  | pinf => exact absurd h (by simp)
  | fin a =>
    have h0 : (Fmt.toK a : K) = 0 := by
      rw [val_fin, EReal.coe_eq_zero, ← map_zero (LawfulFmt.emb α), emb_inj] at h
      exact h
    cases b <;> simp only [mul, infMul, h0, if_true, val_nan, zero_mul, hrnd]

/-- Infinity times a number is infinite or NaN. -/
theorem mul_inf' {a b : Ext α} (h : isInf a = true) : isNaN (mul a b) = true ∨ isInf (mul a b) = true := by
  have hs : ∀ b, isInf (sinf b : Ext α) = true := fun b => by cases b <;> rfl
  have hm : ∀ (p : Bool) (b : K), isNaN (infMul p b : Ext α) = true ∨
      isInf (infMul p b : Ext α) = true := by
    intro p b
    unfold infMul
    split
    · exact .inl rfl
    · exact .inr (hs _)
  cases a <;> simp [isInf] at h <;> cases b <;> simp only [mul] <;>
    first
      | exact .inl rfl
      | exact .inr rfl
      | exact hm _ _

/-- The quotient of a number by a smaller positive number is at least one. -/
theorem one_le_div' {a b : Ext α} (hb : 0 < b.val) (hab : b.val ≤ a.val)
    (hn : isNaN (div a b) = false) : 1 ≤ (div a b).val := by
  cases b with
  | nan => exact absurd hb (by simp)
  | ninf => exact absurd hb (by simp)
  | pinf =>
    have ha : a.val = ⊤ := top_le_iff.mp hab
    cases a with
    | nan => simp at ha
    | ninf => simp at ha
    | pinf => simp [div, isNaN] at hn
    | fin a => exact absurd ha (by simp)
  | fin b =>
    have hb' : (0 : K) < Fmt.toK b := val_fin_pos.mp hb
    cases a with
    | nan => simp [div, isNaN] at hn
    | ninf => exact absurd (hb.trans_le hab) (by simp)
    | pinf =>
      simp only [div, decide_eq_true hb'.le, val_sinf, if_true]
      exact le_top
    | fin a =>
      have hle : (Fmt.toK b : K) ≤ Fmt.toK a := by
        rw [val_fin, val_fin, EReal.coe_le_coe_iff, emb_le] at hab
        exact hab
      simp only [div, hb'.ne', if_false]
      have := val_rnd_le (α := α) (k := 1) (by norm_num) (x := (Fmt.toK a : K) / Fmt.toK b)
        (by rw [Nat.cast_one, le_div_iff₀ hb', one_mul]; exact hle)
      simpa using this

/-- A square is not negative. -/
theorem mul_self_nonneg' (a : Ext α) : 0 ≤ (mul a a).val := by
  cases a with
  | nan => simp [mul]
  | ninf => simp [mul]
  | pinf => simp [mul]
  | fin a => exact val_rnd_nonneg (mul_self_nonneg _)

/-- Squares grow with nonnegative numbers. -/
theorem mul_self_mono' {a b : Ext α} (ha : 0 ≤ a.val) (hab : a.val ≤ b.val) (hb : isNaN b = false) :
    (mul a a).val ≤ (mul b b).val := by
  cases b with
  | nan => simp [isNaN] at hb
  | ninf => exact absurd (ha.trans hab) (by simp)
  | pinf => simp only [mul, val_pinf]; exact le_top
  | fin b =>
    cases a with
    | nan => simp only [mul, val_nan]; exact val_rnd_nonneg (mul_self_nonneg _)
    | ninf => exact absurd ha (by simp)
    | pinf => exact absurd hab (by simp)
    | fin a =>
      have h0 : (0 : K) ≤ Fmt.toK a := val_fin_nonneg.mp ha
      have hle : (Fmt.toK a : K) ≤ Fmt.toK b := by
        rw [val_fin, val_fin, EReal.coe_le_coe_iff, emb_le] at hab
        exact hab
      exact LawfulFmt.rnd_mono (mul_le_mul hle hle h0 (h0.trans hle))

/-- One is neutral. -/
theorem one_mul' {a : α} (h : (Fmt.toK a : K) = 1) (b : Ext α) : mul (.fin a) b = b := by
  cases b with
  | nan => rfl
  | ninf => simp [mul, infMul, h, sinf]
  | pinf => simp [mul, infMul, h, sinf]
  | fin b => simp only [mul, h, _root_.one_mul]; exact LawfulFmt.rnd_toK b

/-- As `mul_inf'`, with the factors exchanged. -/
theorem inf_mul' {a b : Ext α} (h : isInf b = true) : isNaN (mul a b) = true ∨ isInf (mul a b) = true := by
  have hs : ∀ b, isInf (sinf b : Ext α) = true := fun b => by cases b <;> rfl
  have hm : ∀ (p : Bool) (b : K), isNaN (infMul p b : Ext α) = true ∨
      isInf (infMul p b : Ext α) = true := by
    intro p b
    unfold infMul
    split
    · exact .inl rfl
    · exact .inr (hs _)
  cases b <;> simp [isInf] at h <;> cases a <;> simp only [mul] <;>
    first
      | exact .inl rfl
      | exact .inr rfl
      | exact hm _ _

theorem nonfinite_add_left {a b : Ext α} (h : isNaN a = true ∨ isInf a = true) :
    isNaN (add a b) = true ∨ isInf (add a b) = true := by
  cases a <;> simp [isNaN, isInf] at h <;> cases b <;> simp [add, isNaN, isInf]

theorem nonfinite_add_right {a b : Ext α} (h : isNaN b = true ∨ isInf b = true) :
    isNaN (add a b) = true ∨ isInf (add a b) = true := by
  cases b <;> simp [isNaN, isInf] at h <;> cases a <;> simp [add, isNaN, isInf]

end Ext

section
variable [Libm F64]

theorem f64_zero : ∃ z : Bin64, (0 : F64) = .fin z ∧ (Fmt.toK z : ℚ) = 0 := by
  obtain ⟨a, ha, hr⟩ := Ext.rnd_nat (α := Bin64) (K := ℚ) (k := 0) (by norm_num)
  refine ⟨a, ?_, by simpa using ha⟩
  rw [← hr]
  show Fmt.rnd ((((0 : ℕ) : ℚ)) : ℚ) = _
  simp

theorem Ext.zero_mul_nanOr {a b : F64} (h : NaNOr 0 a) : NaNOr 0 (a * b) := by
  rcases h with h | rfl
  · exact .inl (Ext.isNaN_mul_left h)
  · obtain ⟨z, hz, h0⟩ := f64_zero
    rw [NaNOr, hz]
    show isNaN (mul (.fin z) b) = true ∨ mul (.fin z) b = .fin z
    cases b with
    | nan => exact .inl rfl
    | ninf => left; simp [mul, infMul, h0, isNaN]
    | pinf => left; simp [mul, infMul, h0, isNaN]
    | fin b =>
      right
      simp only [mul, h0, zero_mul]
      rw [← h0]
      exact LawfulFmt.rnd_toK z

theorem Ext.mul_zero_nanOr {a b : F64} (h : NaNOr 0 b) : NaNOr 0 (a * b) := by
  rcases h with h | rfl
  · exact .inl (Ext.isNaN_mul_right h)
  · obtain ⟨z, hz, h0⟩ := f64_zero
    rw [NaNOr, hz]
    show isNaN (mul a (.fin z)) = true ∨ mul a (.fin z) = .fin z
    cases a with
    | nan => exact .inl rfl
    | ninf => left; simp [mul, infMul, h0, isNaN]
    | pinf => left; simp [mul, infMul, h0, isNaN]
    | fin a =>
      right
      simp only [mul, h0, mul_zero]
      rw [← h0]
      exact LawfulFmt.rnd_toK z

theorem Ext.add_nanOr {a b x : F64} (h : NaNOr x a) (h' : NaNOr 0 b) : NaNOr x (a + b) := by
  rcases h with h | rfl
  · exact .inl (Ext.isNaN_add_left' h)
  rcases h' with h' | rfl
  · exact .inl (Ext.isNaN_add_right' h')
  obtain ⟨z, hz, h0⟩ := f64_zero
  rw [NaNOr, hz]
  show isNaN (add a (.fin z)) = true ∨ add a (.fin z) = a
  cases a with
  | nan => exact .inl rfl
  | ninf => exact .inr rfl
  | pinf => exact .inr rfl
  | fin a =>
    right
    simp only [add, h0, add_zero]
    exact LawfulFmt.rnd_toK a

theorem Ext.zero_mul_finite {b : F64} (h : ¬ NonFinite b) : ¬ Flt.isNaN (0 * b) = true := by
  obtain ⟨z, hz, h0⟩ := f64_zero
  rw [hz]
  cases b with
  | nan => exact absurd (.inl rfl) h
  | ninf => exact absurd (.inr rfl) h
  | pinf => exact absurd (.inr rfl) h
  | fin b =>
    have e : mul (.fin z) (.fin b) = (.fin z : F64) := by
      simp only [mul, h0, zero_mul]
      rw [← h0]
      exact LawfulFmt.rnd_toK z
    show ¬ isNaN (mul (.fin z) (.fin b)) = true
    rw [e]
    simp [isNaN]

theorem Ext.isNaN_add_zero (a : F64) : Flt.isNaN (a + 0) = Flt.isNaN a := by
  obtain ⟨z, hz, h0⟩ := f64_zero
  rw [hz]
  cases a with
  | nan => rfl
  | ninf => rfl
  | pinf => rfl
  | fin a =>
    have e : add (.fin a) (.fin z) = (.fin a : F64) := by
      simp only [add, h0, add_zero]
      exact LawfulFmt.rnd_toK a
    show isNaN (add (.fin a) (.fin z)) = isNaN (.fin a)
    rw [e]

end

end Cmaes
