import Verif.Float.ExtLaws
import Mathlib.Data.Int.Log
import Mathlib.Tactic.Linarith
import Mathlib.Tactic.Positivity
import Mathlib.Tactic.Ring
import Mathlib.Tactic.FieldSimp
import Mathlib.Tactic.NormNum

/-!
# IEEE-754 binary64

The finite values are exactly the rationals representable in binary64; every arithmetic result is
rounded to nearest, ties to even, with gradual underflow and overflow to infinity.
-/

set_option exponentiation.threshold 2000

namespace Cmaes

/-- Nearest integer, ties to even. -/
def roundEven (x : ℚ) : ℤ :=
  if x - ⌊x⌋ < 1 / 2 then ⌊x⌋
  else if 1 / 2 < x - ⌊x⌋ then ⌊x⌋ + 1
  else if ⌊x⌋ % 2 = 0 then ⌊x⌋ else ⌊x⌋ + 1

theorem roundEven_spec (x : ℚ) :
    |x - roundEven x| < 1 / 2 ∨ |x - roundEven x| = 1 / 2 ∧ roundEven x % 2 = 0 := by
  have h0 := Int.floor_le x
  have h1 := Int.lt_floor_add_one x
  unfold roundEven
  split_ifs with h2 h3 h4
  · left; rw [abs_lt]; constructor <;> linarith
  · left; push_cast; rw [abs_lt]; constructor <;> linarith
  · right
    have : x - ⌊x⌋ = 1 / 2 := by linarith
    rw [this]; exact ⟨by norm_num, h4⟩
  · right
    have h5 : x - ⌊x⌋ = 1 / 2 := by linarith
    have : x - ((⌊x⌋ + 1 : ℤ) : ℚ) = -(1 / 2) := by push_cast; linarith
    rw [this]; exact ⟨by norm_num, by omega⟩

theorem roundEven_unique {x : ℚ} {n : ℤ}
    (h : |x - n| < 1 / 2 ∨ |x - n| = 1 / 2 ∧ n % 2 = 0) : roundEven x = n := by
  have hs := roundEven_spec x
  generalize roundEven x = m at hs
  have hd : |(m : ℚ) - n| ≤ |x - m| + |x - n| := by
    have := abs_sub_le (m : ℚ) x n
    rwa [abs_sub_comm (m : ℚ) x] at this
  have hcast : |(m : ℚ) - n| = ((|m - n| : ℤ) : ℚ) := by push_cast; rfl
  rw [hcast] at hd
  rcases hs with hs | ⟨hs, hse⟩
  · have : ((|m - n| : ℤ) : ℚ) < 1 := by rcases h with h | ⟨h, _⟩ <;> linarith
    have : |m - n| < 1 := by exact_mod_cast this
    have := Int.abs_lt_one_iff.mp this
    omega
  · rcases h with h | ⟨h, he⟩
    · have : ((|m - n| : ℤ) : ℚ) < 1 := by linarith
      have : |m - n| < 1 := by exact_mod_cast this
      have := Int.abs_lt_one_iff.mp this
      omega
    · have : ((|m - n| : ℤ) : ℚ) ≤ 1 := by linarith
      have : |m - n| ≤ 1 := by exact_mod_cast this
      have := abs_le.mp this
      omega

@[simp] theorem roundEven_intCast (n : ℤ) : roundEven (n : ℚ) = n :=
  roundEven_unique (by left; simp)

theorem roundEven_neg (x : ℚ) : roundEven (-x) = -roundEven x := by
  apply roundEven_unique
  have e : -x - ((-roundEven x : ℤ) : ℚ) = -(x - roundEven x) := by push_cast; ring
  rw [e, abs_neg]
  rcases roundEven_spec x with h | ⟨h, h'⟩
  · exact Or.inl h
  · exact Or.inr ⟨h, by omega⟩

theorem roundEven_mono {x y : ℚ} (h : x ≤ y) : roundEven x ≤ roundEven y := by
  have hf := Int.floor_mono h
  rcases hf.eq_or_lt with he | hl
  · unfold roundEven
    rw [he]
    split_ifs <;> first | omega | (exfalso; linarith)
  · have h1 : roundEven x ≤ ⌊x⌋ + 1 := by unfold roundEven; split_ifs <;> omega
    have h2 : ⌊y⌋ ≤ roundEven y := by unfold roundEven; split_ifs <;> omega
    omega

/-- The exponent of the unit in the last place of a number near `q`. -/
def expo (q : ℚ) : ℤ := max (Int.log 2 |q| - 52) (-1074)

/-- Rounding to binary64 without an upper limit on the exponent. -/
def rnd0 (q : ℚ) : ℚ := roundEven (q / 2 ^ expo q) * 2 ^ expo q

theorem two_zpow_pos (e : ℤ) : (0 : ℚ) < 2 ^ e := zpow_pos (by norm_num) e

@[simp] theorem expo_neg (q : ℚ) : expo (-q) = expo q := by simp [expo]

theorem rnd0_neg (q : ℚ) : rnd0 (-q) = -rnd0 q := by
  unfold rnd0
  rw [expo_neg, neg_div, roundEven_neg]
  push_cast; ring

@[simp] theorem rnd0_zero : rnd0 0 = 0 := by
  have : roundEven 0 = 0 := by simpa using roundEven_intCast 0
  simp [rnd0, this]

theorem rnd0_of_mul {q : ℚ} {m k : ℤ} (hq : q = m * 2 ^ k) (hk : expo q ≤ k) : rnd0 q = q := by
  unfold rnd0
  have h2 : (2 : ℚ) ^ expo q ≠ 0 := (two_zpow_pos _).ne'
  obtain ⟨j, hj⟩ := Int.le.dest hk
  have : q / 2 ^ expo q = ((m * 2 ^ j : ℤ) : ℚ) := by
    rw [div_eq_iff h2]
    conv_lhs => rw [hq, ← hj, zpow_add₀ (by norm_num), zpow_natCast]
    push_cast; ring
  rw [this, roundEven_intCast, ← this, div_mul_cancel₀ _ h2]

theorem abs_lt_expo (q : ℚ) : |q| < 2 ^ (expo q + 53) := by
  by_cases h0 : q = 0
  · subst h0; simpa using two_zpow_pos _
  have h1 := Int.lt_zpow_succ_log_self (R := ℚ) (b := 2) (by norm_num) |q|
  refine h1.trans_le ?_
  push_cast
  apply zpow_le_zpow_right₀ (by norm_num)
  unfold expo
  omega

theorem expo_le_of_lt {q : ℚ} {k : ℤ} (h0 : q ≠ 0) (hk : -1074 ≤ k) (h : |q| < 2 ^ (k + 53)) : expo q ≤ k := by
  unfold expo
  have h1 := Int.zpow_log_le_self (R := ℚ) (b := 2) (by norm_num) (abs_pos.mpr h0)
  have h2 : (2 : ℚ) ^ Int.log 2 |q| < 2 ^ (k + 53) := by
    push_cast at h1; exact h1.trans_lt h
  have h3 := (zpow_lt_zpow_iff_right₀ (by norm_num : (1 : ℚ) < 2)).mp h2
  omega

/-- Numbers `m * 2^k` with a 53-bit significand and `k ≥ -1074` are representable. -/
theorem rnd0_exact {m k : ℤ} (hm : |m| ≤ 2 ^ 53) (hk : -1074 ≤ k) :
    rnd0 (m * 2 ^ k) = m * 2 ^ k := by
  have hp := two_zpow_pos k
  by_cases h0 : m = 0
  · subst h0; simp
  have hq0 : (m : ℚ) * 2 ^ k ≠ 0 := mul_ne_zero (by exact_mod_cast h0) hp.ne'
  have e53 : (2 : ℚ) ^ (53 : ℤ) = 2 ^ 53 := by norm_num
  rcases hm.lt_or_eq with hm | hm
  · apply rnd0_of_mul rfl
    apply expo_le_of_lt hq0 hk
    rw [abs_mul, abs_of_pos hp, zpow_add₀ (by norm_num), mul_comm]
    apply mul_lt_mul_of_pos_left _ hp
    have : ((|m| : ℤ) : ℚ) < ((2 ^ 53 : ℤ) : ℚ) := by exact_mod_cast hm
    push_cast at this
    rw [e53]; exact this
  · have hm' : ∃ s : ℤ, m = s * 2 ∧ |s| = 2 ^ 52 := by
      rcases abs_choice m with h | h
      · exact ⟨2 ^ 52, by rw [← h, hm]; norm_num, by norm_num⟩
      · exact ⟨-2 ^ 52, by rw [h] at hm; omega, by norm_num⟩
    obtain ⟨s, rfl, hs⟩ := hm'
    apply rnd0_of_mul (m := s) (k := k + 1)
    · rw [zpow_add₀ (by norm_num)]; push_cast; ring
    · apply expo_le_of_lt hq0 (by omega)
      rw [abs_mul, abs_of_pos hp]
      have e : (2 : ℚ) ^ (k + 1 + 53) = 2 ^ k * 2 ^ 54 := by
        rw [add_assoc, zpow_add₀ (by norm_num)]; norm_num
      rw [e, mul_comm]
      apply mul_lt_mul_of_pos_left _ hp
      have : ((|s * 2| : ℤ) : ℚ) = ((2 ^ 53 : ℤ) : ℚ) := by rw [hm]
      push_cast at this
      push_cast
      rw [this]; norm_num

theorem roundEven_abs_le {x : ℚ} {n : ℤ} (h : |x| ≤ n) : |roundEven x| ≤ n := by
  rw [abs_le] at h ⊢
  constructor
  · have := roundEven_mono (x := ((-n : ℤ) : ℚ)) (y := x) (by push_cast; exact h.1)
    rwa [roundEven_intCast] at this
  · have := roundEven_mono h.2
    simpa using this

theorem signif_le (q : ℚ) : |roundEven (q / 2 ^ expo q)| ≤ 2 ^ 53 := by
  apply roundEven_abs_le
  have hp := two_zpow_pos (expo q)
  rw [abs_div, abs_of_pos hp, div_le_iff₀ hp]
  have := abs_lt_expo q
  rw [zpow_add₀ (by norm_num)] at this
  push_cast
  have e : (2 : ℚ) ^ (53 : ℤ) = 2 ^ 53 := by norm_num
  rw [e] at this
  linarith

theorem rnd0_idem (q : ℚ) : rnd0 (rnd0 q) = rnd0 q :=
  rnd0_exact (signif_le q) (le_max_right _ _)

theorem rnd0_nonneg {q : ℚ} (h : 0 ≤ q) : 0 ≤ rnd0 q := by
  unfold rnd0
  have hp := two_zpow_pos (expo q)
  have : roundEven 0 ≤ roundEven (q / 2 ^ expo q) := roundEven_mono (by positivity)
  have h0 : roundEven 0 = 0 := by simpa using roundEven_intCast 0
  rw [h0] at this
  have : (0 : ℚ) ≤ roundEven (q / 2 ^ expo q) := by exact_mod_cast this
  positivity

theorem rnd0_mono_nonneg {x y : ℚ} (hx : 0 ≤ x) (h : x ≤ y) : rnd0 x ≤ rnd0 y := by
  rcases hx.eq_or_lt with rfl | hx
  · rw [rnd0_zero]; exact rnd0_nonneg h
  have hy := hx.trans_le h
  have hlog : Int.log 2 |x| ≤ Int.log 2 |y| := by
    rw [abs_of_pos hx, abs_of_pos hy]; exact Int.log_mono_right hx h
  have he : expo x ≤ expo y := by unfold expo; omega
  rcases he.eq_or_lt with he | he
  · unfold rnd0
    rw [he]
    have hp := two_zpow_pos (expo y)
    apply mul_le_mul_of_nonneg_right _ hp.le
    exact_mod_cast roundEven_mono (by gcongr)
  · have hey : expo y = Int.log 2 |y| - 52 := by unfold expo at he ⊢; omega
    have h1 : (2 : ℚ) ^ (expo y + 52) ≤ y := by
      have := Int.zpow_log_le_self (R := ℚ) (b := 2) (by norm_num) hy
      rw [abs_of_pos hy] at hey
      rw [hey]; simpa using this
    have hp := two_zpow_pos (expo y)
    have hpx := two_zpow_pos (expo x)
    have h2 : (2 : ℤ) ^ 52 ≤ roundEven (y / 2 ^ expo y) := by
      have : ((2 ^ 52 : ℤ) : ℚ) ≤ y / 2 ^ expo y := by
        rw [le_div_iff₀ hp]
        rw [zpow_add₀ (by norm_num)] at h1
        push_cast
        have e : (2 : ℚ) ^ (52 : ℤ) = 2 ^ 52 := by norm_num
        rw [e] at h1
        linarith
      have h := roundEven_mono this
      rwa [roundEven_intCast] at h
    have h3 : (2 : ℚ) ^ (expo y + 52) ≤ rnd0 y := by
      unfold rnd0
      rw [zpow_add₀ (by norm_num), mul_comm]
      apply mul_le_mul_of_nonneg_right _ hp.le
      have : ((2 ^ 52 : ℤ) : ℚ) ≤ roundEven (y / 2 ^ expo y) := by exact_mod_cast h2
      push_cast at this
      have e : (2 : ℚ) ^ (52 : ℤ) = 2 ^ 52 := by norm_num
      rw [e]; exact this
    have h4 : rnd0 x ≤ 2 ^ (expo x + 53) := by
      unfold rnd0
      rw [zpow_add₀ (by norm_num), mul_comm ((2 : ℚ) ^ expo x)]
      apply mul_le_mul_of_nonneg_right _ hpx.le
      have := (abs_le.mp (signif_le x)).2
      have : (roundEven (x / 2 ^ expo x) : ℚ) ≤ ((2 ^ 53 : ℤ) : ℚ) := by exact_mod_cast this
      push_cast at this
      have e : (2 : ℚ) ^ (53 : ℤ) = 2 ^ 53 := by norm_num
      rw [e]; exact this
    have h5 : (2 : ℚ) ^ (expo x + 53) ≤ 2 ^ (expo y + 52) :=
      zpow_le_zpow_right₀ (by norm_num) (by omega)
    linarith

theorem rnd0_mono {x y : ℚ} (h : x ≤ y) : rnd0 x ≤ rnd0 y := by
  rcases le_total 0 x with hx | hx
  · exact rnd0_mono_nonneg hx h
  · rcases le_total 0 y with hy | hy
    · have h1 := rnd0_nonneg hy
      have h2 := rnd0_nonneg (q := -x) (by linarith)
      rw [rnd0_neg] at h2
      linarith
    · have := rnd0_mono_nonneg (x := -y) (y := -x) (by linarith) (by linarith)
      rw [rnd0_neg, rnd0_neg] at this
      linarith

/-- Rounding error: at most half a unit in the last place. -/
theorem rnd0_error (q : ℚ) : |q - rnd0 q| ≤ 2 ^ expo q / 2 := by
  have hp := two_zpow_pos (expo q)
  have h : |q / 2 ^ expo q - roundEven (q / 2 ^ expo q)| ≤ 1 / 2 := by
    rcases roundEven_spec (q / 2 ^ expo q) with h | ⟨h, _⟩
    · exact h.le
    · exact h.le
  have e : q - rnd0 q = (q / 2 ^ expo q - roundEven (q / 2 ^ expo q)) * 2 ^ expo q := by
    unfold rnd0
    rw [sub_mul, div_mul_cancel₀ _ hp.ne']
  rw [e, abs_mul, abs_of_pos hp]
  nlinarith

theorem rnd0_grid_nearest (q : ℚ) (n : ℤ) : |q - rnd0 q| ≤ |q - n * 2 ^ expo q| := by
  have hp := two_zpow_pos (expo q)
  have key : |q / 2 ^ expo q - roundEven (q / 2 ^ expo q)| ≤ |q / 2 ^ expo q - n| := by
    generalize q / 2 ^ expo q = x
    by_cases hn : roundEven x = n
    · rw [hn]
    · have h1 : |x - roundEven x| ≤ 1 / 2 := by
        rcases roundEven_spec x with h | ⟨h, _⟩ <;> exact h.le
      have h2 : (1 : ℚ) ≤ |(roundEven x : ℚ) - n| := by
        have : 1 ≤ |roundEven x - n| := Int.one_le_abs (by omega)
        have : ((1 : ℤ) : ℚ) ≤ ((|roundEven x - n| : ℤ) : ℚ) := by exact_mod_cast this
        push_cast at this; exact this
      have h3 := abs_sub_le (roundEven x : ℚ) x n
      rw [abs_sub_comm (roundEven x : ℚ) x] at h3
      linarith
  have e1 : q - rnd0 q = (q / 2 ^ expo q - roundEven (q / 2 ^ expo q)) * 2 ^ expo q := by
    unfold rnd0
    rw [sub_mul, div_mul_cancel₀ _ hp.ne']
  have e2 : q - n * 2 ^ expo q = (q / 2 ^ expo q - n) * 2 ^ expo q := by
    rw [sub_mul, div_mul_cancel₀ _ hp.ne']
  rw [e1, e2, abs_mul, abs_mul]
  exact mul_le_mul_of_nonneg_right key (abs_nonneg _)

/-- Rounding to nearest: no representable number is closer. -/
theorem rnd0_nearest (q r : ℚ) (hr : rnd0 r = r) : |q - rnd0 q| ≤ |q - r| := by
  by_cases hq0 : q = 0
  · subst hq0; simp
  rcases le_or_gt (expo q) (expo r) with h | h
  · obtain ⟨j, hj⟩ := Int.le.dest h
    have e : r = ((roundEven (r / 2 ^ expo r) * 2 ^ j : ℤ) : ℚ) * 2 ^ expo q := by
      conv_lhs => rw [← hr, rnd0]
      rw [← hj, zpow_add₀ (by norm_num), zpow_natCast]
      push_cast; ring
    rw [e]; exact rnd0_grid_nearest q _
  · have hx : -1074 ≤ expo r := le_max_right _ _
    have hlog := Int.zpow_log_le_self (R := ℚ) (b := 2) (by norm_num) (abs_pos.mpr hq0)
    have hq : expo q + 52 = Int.log 2 |q| := by unfold expo at h ⊢; unfold expo at hx; omega
    have hq52 : (2 : ℚ) ^ (expo q + 52) ≤ |q| := by rw [hq]; exact_mod_cast hlog
    have hr53 : |r| ≤ 2 ^ (expo q + 52) :=
      (abs_lt_expo r).le.trans (zpow_le_zpow_right₀ (by norm_num) (by omega))
    have e52 : (2 : ℚ) ^ (expo q + 52) = 4503599627370496 * 2 ^ expo q := by
      rw [zpow_add₀ (by norm_num), mul_comm]
      have e : (2 : ℚ) ^ (52 : ℤ) = 4503599627370496 := by norm_num
      rw [e]
    have h5 := abs_sub_abs_le_abs_sub q r
    rcases le_total 0 q with hs | hs
    · have := rnd0_grid_nearest q (2 ^ 52)
      push_cast at this
      rw [← e52, abs_of_nonneg (a := q - 2 ^ (expo q + 52)) (by rw [abs_of_nonneg hs] at hq52; linarith)] at this
      rw [abs_of_nonneg hs] at h5
      linarith
    · have := rnd0_grid_nearest q (-2 ^ 52)
      push_cast at this
      rw [neg_mul, ← e52, abs_of_nonpos (a := q - -2 ^ (expo q + 52)) (by rw [abs_of_nonpos hs] at hq52; linarith)] at this
      rw [abs_of_nonpos hs] at h5
      linarith

theorem ulp_le {q : ℚ} (h : (2:ℚ) ^ (-1022 : ℤ) ≤ |q|) : (2:ℚ) ^ expo q ≤ |q| / 2 ^ 52 := by
  have hq : |q| ≠ 0 := (lt_of_lt_of_le (two_zpow_pos _) h).ne'
  have hq0 : 0 < |q| := lt_of_le_of_ne (abs_nonneg q) (Ne.symm hq)
  have h1 := Int.zpow_log_le_self (R := ℚ) (b := 2) (by norm_num) hq0
  have h2 : (-1022 : ℤ) ≤ Int.log 2 |q| := by
    have := Int.log_mono_right (b := 2) (two_zpow_pos (-1022)) h
    have e := Int.log_zpow (R := ℚ) (b := 2) (by norm_num) (-1022)
    push_cast at e
    rwa [e] at this
  have e : expo q = Int.log 2 |q| - 52 := by unfold expo; omega
  rw [e, zpow_sub₀ (by norm_num)]
  push_cast at h1
  have : (2:ℚ) ^ (52 : ℤ) = 2 ^ 52 := by norm_num
  rw [this]
  gcongr

theorem lt_ulp (q : ℚ) : |q| / 2 ^ 53 < (2:ℚ) ^ expo q := by
  have h := abs_lt_expo q
  rw [zpow_add₀ (by norm_num)] at h
  have : (2:ℚ) ^ (53 : ℤ) = 2 ^ 53 := by norm_num
  rw [this] at h
  rw [div_lt_iff₀ (by positivity)]
  exact h

theorem rnd0_nat {a : ℕ} (h : a ≤ 2 ^ 53) : rnd0 (a : ℚ) = a := by
  have := rnd0_exact (m := a) (k := 0) (by rw [abs_of_nonneg (by positivity)]; exact_mod_cast h)
        (by norm_num)
  simpa using this

theorem ceil_rnd0_div {a b : ℕ} (ha : a < 2 ^ 53) (hb : 0 < b) (hb' : b ≤ 2 ^ 53) :
    ⌈rnd0 ((a : ℚ) / b)⌉ = ⌈(a : ℚ) / b⌉ := by
  have hbq : (0 : ℚ) < b := by exact_mod_cast hb
  rcases Nat.eq_zero_or_pos a with rfl | ha0
  · simp
  have haq : (1 : ℚ) ≤ a := by exact_mod_cast ha0
  generalize hq : (a : ℚ) / b = q
  have hq0 : 0 < q := by rw [← hq]; positivity
  have hqb : q * b = a := by rw [← hq]; field_simp
  obtain ⟨k, hk⟩ : ∃ k : ℕ, ⌈q⌉ = k + 1 := by
    have := Int.ceil_pos.mpr hq0
    exact ⟨(⌈q⌉ - 1).toNat, by omega⟩
  have h1 : q ≤ k + 1 := by have := Int.le_ceil q; rw [hk] at this; exact_mod_cast this
  have h2 : (k : ℚ) < q := by
    have := Int.ceil_lt_add_one q; rw [hk] at this; push_cast at this; linarith
  have hka : k + 1 ≤ 2 ^ 53 := by
    have : (k : ℚ) < a := by
      have : q ≤ a := by
        rw [← hqb]
        have : (1 : ℚ) ≤ b := by exact_mod_cast hb
        nlinarith
      linarith
    have : k < a := by exact_mod_cast this
    omega
  have hu : rnd0 q ≤ k + 1 := by
    have := rnd0_mono h1
    have e := rnd0_nat hka
    push_cast at e
    rwa [e] at this
  have hl : (k : ℚ) < rnd0 q := by
    have hge : (k : ℚ) ≤ rnd0 q := by
      have := rnd0_mono h2.le
      rwa [rnd0_nat (by omega)] at this
    rcases hge.lt_or_eq with h | h
    · exact h
    exfalso
    have herr := rnd0_error q
    rw [← h, abs_of_pos (by linarith)] at herr
    have hd : 1 / (b : ℚ) ≤ q - k := by
      rw [div_le_iff₀ hbq, sub_mul, hqb]
      have : (k * b : ℚ) < a := by rw [← hqb]; nlinarith
      have : k * b < a := by exact_mod_cast this
      have : k * b + 1 ≤ a := this
      have : ((k * b + 1 : ℕ) : ℚ) ≤ a := by exact_mod_cast this
      push_cast at this
      linarith
    have hbig : (2:ℚ) ^ (-1022 : ℤ) ≤ |q| := by
      rw [abs_of_pos hq0]
      have h1 : (1 : ℚ) / 2 ^ 53 ≤ q := by
        rw [← hq]
        have : (b : ℚ) ≤ 2 ^ 53 := by exact_mod_cast hb'
        gcongr
      refine le_trans ?_ h1
      have : (1 : ℚ) / 2 ^ 53 = 2 ^ (-53 : ℤ) := by norm_num
      rw [this]
      exact zpow_le_zpow_right₀ (by norm_num) (by norm_num)
    have hul := ulp_le hbig
    rw [abs_of_pos hq0] at hul
    have h3 : 1 / (b : ℚ) ≤ q / 2 ^ 53 := by
      have : (2:ℚ) ^ expo q / 2 ≤ q / 2 ^ 52 / 2 := by linarith
      have e : q / 2 ^ 52 / 2 = q / 2 ^ 53 := by ring
      linarith
    rw [div_le_div_iff₀ hbq (by positivity), hqb] at h3
    have : (a : ℚ) < 2 ^ 53 := by exact_mod_cast ha
    linarith
  rw [hk]
  rw [Int.ceil_eq_iff]
  push_cast
  constructor <;> linarith

theorem rnd0_three_tenths : rnd0 (3 / 10) = 3 / 10 - 1 / (5 * 2 ^ 54) := by
  have : rnd0 (3 / 10) = 5404319552844595 / 2 ^ 54 := by decide +kernel
  rw [this]; norm_num

theorem floor_rnd0_three_tenths {g : ℕ} (hg : g ≤ 2 ^ 40) :
    ⌊rnd0 ((g : ℚ) * rnd0 (3 / 10))⌋ = (3 * g / 10 : ℕ) := by
  rcases Nat.eq_zero_or_pos g with rfl | hg0
  · simp
  have hgq : (1 : ℚ) ≤ g := by exact_mod_cast hg0
  have hgq' : (g : ℚ) ≤ 2 ^ 40 := by exact_mod_cast hg
  rw [rnd0_three_tenths]
  generalize hx : (g : ℚ) * (3 / 10 - 1 / (5 * 2 ^ 54)) = x
  have hx0 : 0 < x := by
    rw [← hx]; apply mul_pos (by linarith); norm_num
  have hxa : |x| = x := abs_of_pos hx0
  have hbig : (2:ℚ) ^ (-1022 : ℤ) ≤ |x| := by
    have : (2:ℚ) ^ (-1022 : ℤ) ≤ 2 ^ (-2 : ℤ) := zpow_le_zpow_right₀ (by norm_num) (by norm_num)
    refine this.trans ?_
    rw [hxa, ← hx]
    norm_num
    nlinarith
  have hul := ulp_le hbig
  have hlu := lt_ulp x
  rw [hxa] at hul hlu
  have herr := abs_le.mp (rnd0_error x)
  generalize hk : 3 * g / 10 = k
  have hk1 : 10 * k ≤ 3 * g := by omega
  have hk2 : 3 * g < 10 * k + 10 := by omega
  have hk1q : (10 * k : ℚ) ≤ 3 * g := by exact_mod_cast hk1
  have hk53 : k + 1 ≤ 2 ^ 53 := by omega
  have hxlt : x < 3 * g / 10 := by rw [← hx]; linarith
  have hk3 : (3 * g + 1 : ℚ) ≤ 10 * k + 10 := by exact_mod_cast hk2
  have hup : rnd0 x < k + 1 := by
    have : x / 2 ^ 52 / 2 < 1 / 20 := by
      have : x ≤ 2 ^ 40 := by linarith
      have : x / 2 ^ 52 / 2 ≤ 2 ^ 40 / 2 ^ 52 / 2 := by gcongr
      have : (2:ℚ) ^ 40 / 2 ^ 52 / 2 < 1 / 20 := by norm_num
      linarith
    linarith
  have hlow : (k : ℚ) ≤ rnd0 x := by
    by_cases hkx : (k : ℚ) ≤ x
    · have := rnd0_mono hkx
      rwa [rnd0_nat (by omega)] at this
    · rw [not_le] at hkx
      have hn := rnd0_nearest x k (rnd0_nat (by omega))
      -- then 3 g / 10 is the integer k
      have hki : 10 * k = 3 * g := by
        by_contra hne
        have : 10 * k + 1 ≤ 3 * g := by omega
        have : (10 * k + 1 : ℚ) ≤ 3 * g := by exact_mod_cast this
        rw [← hx] at hkx
        norm_num at hkx
        linarith
      have hkq : (10 * k : ℚ) = 3 * g := by exact_mod_cast hki
      have hd : k - x = g / (5 * 2 ^ 54) := by rw [← hx]; linarith
      rw [abs_of_neg (by linarith : x - k < 0)] at hn
      have hn' := abs_le.mp hn
      by_contra hlt
      rw [not_le] at hlt
      -- both are multiples of the unit in the last place
      have hex : expo x ≤ 0 := by
        apply expo_le_of_lt hx0.ne' (by norm_num)
        rw [hxa]
        have : (2:ℚ) ^ ((0 : ℤ) + 53) = 2 ^ 53 := by norm_num
        rw [this]
        linarith
      obtain ⟨j, hj⟩ := Int.le.dest hex
      have hpos := two_zpow_pos (expo x)
      have hkm : (k : ℚ) = ((k * 2 ^ j : ℤ) : ℚ) * 2 ^ expo x := by
        push_cast
        rw [mul_assoc, ← zpow_natCast, ← zpow_add₀ (by norm_num)]
        have : (j : ℤ) + expo x = 0 := by omega
        rw [this]; simp
      have hrm : rnd0 x = (roundEven (x / 2 ^ expo x) : ℚ) * 2 ^ expo x := rfl
      have h1 : (roundEven (x / 2 ^ expo x) : ℚ) < ((k * 2 ^ j : ℤ) : ℚ) := by
        rw [hkm, hrm] at hlt
        exact lt_of_mul_lt_mul_right hlt hpos.le
      have h2 : roundEven (x / 2 ^ expo x) + 1 ≤ k * 2 ^ j := by exact_mod_cast h1
      have h3 : ((roundEven (x / 2 ^ expo x) + 1 : ℤ) : ℚ) ≤ ((k * 2 ^ j : ℤ) : ℚ) := by
        exact_mod_cast h2
      have h4 : rnd0 x + 2 ^ expo x ≤ k := by
        rw [hkm, hrm]
        push_cast at h3 ⊢
        nlinarith
      have h5 : (2:ℚ) ^ expo x ≤ 2 * (g / (5 * 2 ^ 54)) := by linarith
      have h6 : x / 2 ^ 53 ≤ 2 * (g / (5 * 2 ^ 54)) := by linarith
      rw [← hx] at h6
      norm_num at h6
      linarith
  rw [Int.floor_eq_iff]
  push_cast
  exact ⟨hlow, hup⟩

/-- The finite binary64 numbers: representable and below `2^1024` in magnitude. -/
def Bin64 : Type := { q : ℚ // rnd0 q = q ∧ |q| < 2 ^ 1024 }

instance : DecidableEq Bin64 := inferInstanceAs (DecidableEq { _q : ℚ // _ })
instance : Repr Bin64 := ⟨fun a p => reprPrec a.1 p⟩

/-- Rounding to binary64: nearest, ties to even, overflow to infinity. -/
def Bin64.rnd (q : ℚ) : Ext Bin64 :=
  if h : |rnd0 q| < 2 ^ 1024 then .fin ⟨rnd0 q, rnd0_idem q, h⟩
  else if 0 < q then .pinf else .ninf

instance : Fmt Bin64 ℚ where
  toK := Subtype.val
  rnd := Bin64.rnd
  neg a := ⟨-a.1, by rw [rnd0_neg, a.2.1], by rw [abs_neg]; exact a.2.2⟩
  isNormal a := decide (1 / 2 ^ 1022 ≤ |a.1|)

/-- IEEE-754 binary64. -/
abbrev F64 := Ext Bin64

theorem Bin64.toK_def (a : Bin64) : (Fmt.toK a : ℚ) = a.1 := rfl
theorem Bin64.rnd_def (q : ℚ) : (Fmt.rnd q : Ext Bin64) = Bin64.rnd q := rfl

theorem rnd0_pos_of_big {q : ℚ} (h : ¬ |rnd0 q| < 2 ^ 1024) (hq : 0 < q) : 2 ^ 1024 ≤ rnd0 q := by
  rw [abs_of_nonneg (rnd0_nonneg hq.le)] at h; exact not_lt.mp h

theorem rnd0_neg_of_big {q : ℚ} (h : ¬ |rnd0 q| < 2 ^ 1024) (hq : ¬ 0 < q) :
    rnd0 q ≤ -2 ^ 1024 := by
  have h1 := rnd0_nonneg (q := -q) (by linarith)
  rw [rnd0_neg] at h1
  rw [abs_of_nonpos (by linarith)] at h
  linarith

noncomputable instance : LawfulFmt Bin64 ℚ where
  emb := Rat.castHom ℝ
  emb_lt {x y} := by simp
  toK_inj h := Subtype.ext h
  rnd_toK a := by
    have h1 : rnd0 a.1 = a.1 := a.2.1
    rw [Bin64.toK_def, Bin64.rnd_def, Bin64.rnd, dif_pos (by rw [h1]; exact a.2.2)]
    congr 1
    exact Subtype.ext h1
  rnd_ne_nan x := by
    rw [Bin64.rnd_def, Bin64.rnd]
    split_ifs <;> simp
  toK_neg a := rfl
  rnd_neg x := by
    rw [Bin64.rnd_def, Bin64.rnd_def, Bin64.rnd, Bin64.rnd]
    by_cases h : |rnd0 x| < 2 ^ 1024
    · rw [dif_pos h, dif_pos (by rw [rnd0_neg, abs_neg]; exact h)]
      exact congrArg Ext.fin (Subtype.ext (rnd0_neg x))
    · rw [dif_neg h, dif_neg (by rw [rnd0_neg, abs_neg]; exact h)]
      have hx : x ≠ 0 := by rintro rfl; simp at h
      rcases lt_or_gt_of_ne hx with h1 | h1
      · simp [h1, Ext.neg, not_lt.mpr h1.le]
      · simp [h1, Ext.neg, not_lt.mpr h1.le]
  rnd_mono {x y} h := by
    have hm := rnd0_mono h
    rw [Bin64.rnd_def, Bin64.rnd_def, Bin64.rnd, Bin64.rnd]
    split_ifs with h1 h2 h3 h4 h5 h6 h7
    · simp only [Ext.valWith, EReal.coe_le_coe_iff]
      show ((rnd0 x : ℚ) : ℝ) ≤ ((rnd0 y : ℚ) : ℝ)
      exact_mod_cast hm
    · exact le_top
    · exfalso
      have := rnd0_neg_of_big h2 h3
      have := (abs_lt.mp h1).1
      linarith
    · exfalso
      have := rnd0_pos_of_big h1 h4
      have := (abs_lt.mp h5).2
      linarith
    · exact le_top
    · exfalso
      exact h6 (h4.trans_le h)
    all_goals exact bot_le
  exact_nat n hn := by
    have h : rnd0 (n : ℚ) = n := by
      have := rnd0_exact (m := n) (k := 0) (by rw [abs_of_nonneg (by positivity)]; exact_mod_cast hn)
        (by norm_num)
      simpa using this
    refine ⟨⟨n, h, ?_⟩, rfl⟩
    rw [abs_of_nonneg (by positivity)]
    calc (n : ℚ) ≤ ((2 ^ 53 : ℕ) : ℚ) := by exact_mod_cast hn
      _ < 2 ^ 1024 := by rw [Nat.cast_pow, Nat.cast_ofNat]; exact pow_lt_pow_right₀ (by norm_num) (by norm_num)
  rnd_div_nat a b ha hb hb' := by
    have hc := ceil_rnd0_div ha hb hb'
    have hbq : (1 : ℚ) ≤ b := by exact_mod_cast hb
    have h0 : (0 : ℚ) ≤ (a : ℚ) / b := by positivity
    have h1 : rnd0 ((a : ℚ) / b) ≤ a := by
      have : (a : ℚ) / b ≤ a := div_le_self (by positivity) hbq
      have := rnd0_mono this
      rwa [rnd0_nat ha.le] at this
    have h2 : |rnd0 ((a : ℚ) / b)| < 2 ^ 1024 := by
      rw [abs_of_nonneg (rnd0_nonneg h0)]
      calc rnd0 ((a : ℚ) / b) ≤ a := h1
        _ ≤ ((2 ^ 53 : ℕ) : ℚ) := by exact_mod_cast ha.le
        _ < 2 ^ 1024 := by rw [Nat.cast_pow, Nat.cast_ofNat]; exact pow_lt_pow_right₀ (by norm_num) (by norm_num)
    exact ⟨⟨_, rnd0_idem _, h2⟩, by rw [Bin64.rnd_def, Bin64.rnd, dif_pos h2], hc⟩
  rnd_three_tenths g hg := by
    have h1 : |rnd0 (3 / 10)| < 2 ^ 1024 := by
      rw [rnd0_three_tenths, abs_of_nonneg (by norm_num)]
      exact lt_of_lt_of_le (by norm_num) (one_le_pow₀ (by norm_num : (1 : ℚ) ≤ 2))
    have hf := floor_rnd0_three_tenths hg
    have h0 : (0 : ℚ) ≤ (g : ℚ) * rnd0 (3 / 10) := by
      have := rnd0_nonneg (q := 3 / 10) (by norm_num)
      positivity
    have h2 : |rnd0 ((g : ℚ) * rnd0 (3 / 10))| < 2 ^ 1024 := by
      rw [abs_of_nonneg (rnd0_nonneg h0)]
      calc rnd0 ((g : ℚ) * rnd0 (3 / 10)) < ⌊rnd0 ((g : ℚ) * rnd0 (3 / 10))⌋ + 1 :=
            Int.lt_floor_add_one _
        _ = ((3 * g / 10 + 1 : ℕ) : ℚ) := by rw [hf]; push_cast; rfl
        _ ≤ ((2 ^ 53 : ℕ) : ℚ) := by
            have : 3 * g / 10 + 1 ≤ 2 ^ 53 := by omega
            exact_mod_cast this
        _ < 2 ^ 1024 := by rw [Nat.cast_pow, Nat.cast_ofNat]; exact pow_lt_pow_right₀ (by norm_num) (by norm_num)
    exact ⟨⟨_, rnd0_idem _, h1⟩, ⟨_, rnd0_idem _, h2⟩, by rw [Bin64.rnd_def, Bin64.rnd, dif_pos h1],
      by show Bin64.rnd ((g : ℚ) * rnd0 (3 / 10)) = _; rw [Bin64.rnd, dif_pos h2], hf⟩
  double a c h := by
    rw [Bin64.toK_def, Bin64.rnd_def, Bin64.rnd] at h
    split_ifs at h with h1
    · injection h with h
      have e : c.1 = rnd0 (2 * a.1) := by rw [← h]
      rw [Bin64.toK_def, Bin64.toK_def, e]
      have ha : a.1 = roundEven (a.1 / 2 ^ expo a.1) * 2 ^ expo a.1 := a.2.1.symm
      have h2 : 2 * a.1 = (roundEven (a.1 / 2 ^ expo a.1) : ℚ) * 2 ^ (expo a.1 + 1) := by
        rw [zpow_add_one₀ (by norm_num)]
        calc 2 * a.1 = 2 * (roundEven (a.1 / 2 ^ expo a.1) * 2 ^ expo a.1) := by rw [← ha]
          _ = _ := by ring
      rw [h2]
      exact rnd0_exact (signif_le _) (by have : -1074 ≤ expo a.1 := le_max_right _ _; omega)
  isNormal_ne {a} h := by
    intro h0
    have h' : decide (1 / 2 ^ 1022 ≤ |a.1|) = true := h
    rw [decide_eq_true_eq] at h'
    rw [Bin64.toK_def] at h0
    rw [h0, abs_zero] at h'
    have : (0 : ℚ) < 1 / 2 ^ 1022 := by positivity
    linarith

end Cmaes
