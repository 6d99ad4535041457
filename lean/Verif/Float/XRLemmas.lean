import Verif.Float.XR

/-!
# Computing with finite exact numbers
-/

namespace Cmaes.XR

theorem ofRat_eq (q : ℚ) : (Flt.ofRat q : XR) = .fin (q : ℝ) := rfl

theorem ofNat_eq (k : Nat) : (Flt.ofNat k : XR) = .fin (k : ℝ) := by
  show (Ext.fin (((k : ℚ) : ℝ)) : XR) = _
  simp

theorem lit_eq (k : Nat) [k.AtLeastTwo] :
    (@OfNat.ofNat XR k (Flt.instOfNat k)) = .fin (OfNat.ofNat k : ℝ) := by
  show (Ext.fin (((k : ℚ) : ℝ)) : XR) = _
  simp [OfNat.ofNat]

theorem zero_eq : (0 : XR) = .fin (0 : ℝ) := by
  show (Ext.fin (((0 : ℕ) : ℚ) : ℝ) : XR) = _
  simp

theorem one_eq : (1 : XR) = .fin (1 : ℝ) := by
  show (Ext.fin (((1 : ℕ) : ℚ) : ℝ) : XR) = _
  simp

theorem add_fin (a b : ℝ) : (.fin a + .fin b : XR) = .fin (a + b) := rfl

theorem sub_fin (a b : ℝ) : (.fin a - .fin b : XR) = .fin (a - b) := by
  show (Ext.fin (a + -b) : XR) = _
  rw [sub_eq_add_neg]

theorem mul_fin (a b : ℝ) : (.fin a * .fin b : XR) = .fin (a * b) := rfl

theorem neg_fin (a : ℝ) : (-.fin a : XR) = .fin (-a) := rfl

theorem div_fin {a b : ℝ} (h : b ≠ 0) : (.fin a / .fin b : XR) = .fin (a / b) := if_neg h

theorem sqrt_fin {a : ℝ} (h : 0 ≤ a) : (Flt.sqrt (.fin a) : XR) = .fin (Real.sqrt a) :=
  if_neg (not_lt.mpr h)

theorem exp_fin (a : ℝ) : (Flt.exp (.fin a) : XR) = .fin (Real.exp a) := rfl

theorem ln_fin {a : ℝ} (h : 0 < a) : (Flt.ln (.fin a) : XR) = .fin (Real.log a) := by
  show (if a < 0 then Ext.nan else if a = 0 then Ext.ninf else Ext.fin (Real.log a) : XR) = _
  rw [if_neg (not_lt.mpr h.le), if_neg h.ne']

theorem lt_fin (a b : ℝ) : Flt.lt (.fin a : XR) (.fin b) = decide (a < b) := rfl

theorem le_fin (a b : ℝ) : Flt.le (.fin a : XR) (.fin b) = decide (a ≤ b) := rfl

theorem isNaN_fin (a : ℝ) : Flt.isNaN (.fin a : XR) = false := rfl

theorem isInf_fin (a : ℝ) : Flt.isInf (.fin a : XR) = false := rfl

theorem isNormal_fin (a : ℝ) : Flt.isNormal (.fin a : XR) = decide (a ≠ 0) := by
  show decide _ = decide _
  congr 1

theorem abs_fin (a : ℝ) : Flt.abs (.fin a : XR) = .fin |a| := by
  show (if a < 0 then Ext.fin (-a) else Ext.fin a : XR) = _
  split
  · rename_i h; rw [abs_of_neg h]
  · rename_i h; rw [abs_of_nonneg (not_lt.mp h)]

theorem fmin_fin (a b : ℝ) : Flt.fmin (.fin a : XR) (.fin b) = .fin (min a b) := by
  unfold Flt.fmin
  simp only [isNaN_fin, Bool.false_eq_true, if_false, lt_fin, decide_eq_true_eq]
  split
  · rename_i h; rw [min_eq_right h.le]
  · rename_i h; rw [min_eq_left (not_lt.mp h)]

theorem fmax_fin (a b : ℝ) : Flt.fmax (.fin a : XR) (.fin b) = .fin (max a b) := by
  unfold Flt.fmax
  simp only [isNaN_fin, Bool.false_eq_true, if_false, lt_fin, decide_eq_true_eq]
  split
  · rename_i h; rw [max_eq_right h.le]
  · rename_i h; rw [max_eq_left (not_lt.mp h)]

theorem powiLoop_fin (fuel : Nat) (a r : ℝ) (b : Nat) (h : b < fuel) :
    Flt.powiLoop fuel (.fin a : XR) (.fin r) b = .fin (r * a ^ b) := by
  induction fuel generalizing a r b with
  | zero => omega
  | succ fuel ih =>
    unfold Flt.powiLoop
    have hb : b = 2 * (b / 2) + b % 2 := by omega
    have hr : (if b % 2 = 1 then (.fin r * .fin a : XR) else .fin r) =
        .fin (r * a ^ (b % 2)) := by
      have : b % 2 = 0 ∨ b % 2 = 1 := by omega
      rcases this with h | h <;> simp [h, mul_fin]
    simp only [hr]
    split
    · rename_i h0
      rw [show b % 2 = b by omega]
    · rename_i h0
      rw [mul_fin, ih _ _ _ (by omega)]
      congr 1
      conv_rhs => rw [hb, pow_add, pow_mul]
      ring

theorem powi_fin (a : ℝ) (k : Nat) : Flt.powi (.fin a : XR) k = .fin (a ^ k) := by
  unfold Flt.powi
  rw [one_eq, powiLoop_fin _ _ _ _ (by omega), one_mul]

theorem foldl_fin (l : List ℝ) (s : ℝ) :
    (l.map (.fin : ℝ → XR)).foldl (· + ·) (.fin s) = .fin (s + l.sum) := by
  induction l generalizing s with
  | nil => simp
  | cons a l ih => simp only [List.map_cons, List.foldl_cons, add_fin, ih, List.sum_cons, add_assoc]

end Cmaes.XR
