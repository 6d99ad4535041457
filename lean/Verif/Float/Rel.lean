import Verif.Float.Bin64
import Mathlib.Analysis.SpecialFunctions.Log.Basic
import Mathlib.Analysis.SpecialFunctions.Pow.Real

/-!
# Relative errors in binary64

`Near k B x r` says that the finite binary64 number `x` differs from the positive real `r` by at
most a factor `(1 + 2^-52)^k`, and that `r` lies between `2^-B` and `2^B`. Every operation adds one
to the exponent `k`; the bound `B` excludes overflow and underflow.
-/

namespace Cmaes

/-- `x` is the finite number `a`. -/
def IsReal (x : F64) (a : ℝ) : Prop := ∃ b : Bin64, x = .fin b ∧ ((b.1 : ℚ) : ℝ) = a

theorem IsReal.inj {x : F64} {a b : ℝ} (h : IsReal x a) (h' : IsReal x b) : a = b := by
  obtain ⟨y, rfl, rfl⟩ := h
  obtain ⟨z, hz, rfl⟩ := h'
  injection hz with hz
  rw [hz]

theorem rnd_error (q : ℚ) : |rnd0 q - q| ≤ |q| / 2 ^ 53 + 1 / 2 ^ 1075 := by
  have h := rnd0_error q
  rw [abs_sub_comm] at h
  have h0 : (0 : ℚ) ≤ |q| / 2 ^ 53 := by positivity
  have hp : (0 : ℚ) ≤ 1 / 2 ^ 1075 := by positivity
  by_cases hq : (2 : ℚ) ^ (-1022 : ℤ) ≤ |q|
  · have := ulp_le hq
    have e : |q| / 2 ^ 53 = |q| / 2 ^ 52 / 2 := by ring
    generalize (1 : ℚ) / 2 ^ 1075 = w at *
    linarith
  · by_cases hz : q = 0
    · subst hz
      rw [rnd0_zero]
      simp
    · have h1 : expo q ≤ -1074 := by
        refine expo_le_of_lt hz le_rfl (lt_trans (not_le.mp hq) ?_)
        exact zpow_lt_zpow_right₀ (by norm_num) (by norm_num)
      have h2 : (2 : ℚ) ^ expo q ≤ 2 ^ (-1074 : ℤ) := zpow_le_zpow_right₀ (by norm_num) h1
      have e : (2 : ℚ) ^ (-1074 : ℤ) / 2 = 1 / 2 ^ 1075 := by
        rw [zpow_neg, show (1074 : ℤ) = ((1074 : ℕ) : ℤ) from rfl, zpow_natCast, pow_succ _ 1074]
        field_simp
      generalize (1 : ℚ) / 2 ^ 1075 = w at *
      linarith

/-- Rounding a number that is not too large gives a finite number. -/
theorem rnd_finite {q : ℚ} {r : ℝ} (hq : (q : ℝ) = r) (h : |r| ≤ 2 ^ 1000) :
    ∃ a : ℝ, IsReal (Fmt.rnd q : F64) a ∧ |a - r| ≤ |r| / 2 ^ 53 + 1 / 2 ^ 1075 := by
  subst hq
  have he := rnd_error q
  have he' : |((rnd0 q : ℚ) : ℝ) - q| ≤ |(q : ℝ)| / 2 ^ 53 + 1 / 2 ^ 1075 := by
    have := (Rat.cast_le (K := ℝ)).mpr he
    push_cast at this
    exact this
  have hq' : |q| ≤ 2 ^ 1000 := by exact_mod_cast h
  have hb : |rnd0 q| < 2 ^ 1024 := by
    have h1 : |rnd0 q| ≤ |rnd0 q - q| + |q| := by
      have := abs_add_le (rnd0 q - q) q
      rwa [sub_add_cancel] at this
    have h2 : (1 : ℚ) / 2 ^ 1075 ≤ 1 := by
      rw [div_le_one (by positivity)]
      exact one_le_pow₀ (by norm_num)
    have h3 : |q| / 2 ^ 53 ≤ |q| := div_le_self (abs_nonneg _) (one_le_pow₀ (by norm_num))
    have h4 : (1 : ℚ) ≤ 2 ^ 1000 := one_le_pow₀ (by norm_num)
    have h5 : (2 : ℚ) ^ 1024 = 2 ^ 1000 * 2 ^ 24 := by rw [← pow_add]
    have h6 : (2 : ℚ) ^ 24 = 16777216 := by norm_num
    generalize (2 : ℚ) ^ 1000 = P at *
    rw [h5, h6]
    clear he' h h5 h6
    generalize (1 : ℚ) / 2 ^ 1075 = w at *
    linarith
  refine ⟨_, ⟨⟨rnd0 q, rnd0_idem q, hb⟩, ?_, rfl⟩, he'⟩
  rw [Bin64.rnd_def, Bin64.rnd, dif_pos hb]

variable {x y : F64} {a b : ℝ}

theorem IsReal.add_rnd (hx : IsReal x a) (hy : IsReal y b) :
    ∃ q : ℚ, (q : ℝ) = a + b ∧ Ext.add x y = Fmt.rnd q := by
  obtain ⟨u, rfl, rfl⟩ := hx
  obtain ⟨v, rfl, rfl⟩ := hy
  exact ⟨u.1 + v.1, by push_cast; rfl, rfl⟩

theorem IsReal.neg' (hx : IsReal x a) : IsReal (Ext.neg x) (-a) := by
  obtain ⟨u, rfl, rfl⟩ := hx
  exact ⟨Fmt.neg u, rfl, by show (((-u.1 : ℚ)) : ℝ) = _; push_cast; rfl⟩

theorem IsReal.mul_rnd (hx : IsReal x a) (hy : IsReal y b) :
    ∃ q : ℚ, (q : ℝ) = a * b ∧ Ext.mul x y = Fmt.rnd q := by
  obtain ⟨u, rfl, rfl⟩ := hx
  obtain ⟨v, rfl, rfl⟩ := hy
  exact ⟨u.1 * v.1, by push_cast; rfl, rfl⟩

theorem IsReal.div_rnd (hx : IsReal x a) (hy : IsReal y b) (hb : b ≠ 0) :
    ∃ q : ℚ, (q : ℝ) = a / b ∧ Ext.div x y = Fmt.rnd q := by
  obtain ⟨u, rfl, rfl⟩ := hx
  obtain ⟨v, rfl, rfl⟩ := hy
  refine ⟨u.1 / v.1, by push_cast; rfl, ?_⟩
  have : (Fmt.toK v : ℚ) ≠ 0 := by
    intro h
    apply hb
    rw [show (v.1 : ℚ) = 0 from h]
    simp
  show (if (Fmt.toK v : ℚ) = 0 then _ else _) = _
  rw [if_neg this]
  rfl

/-- A result that is representable is exact. -/
theorem IsReal.rnd_exact {q : ℚ} (hx : IsReal x q) : (Fmt.rnd q : F64) = x := by
  obtain ⟨u, rfl, h⟩ := hx
  have : u.1 = q := by exact_mod_cast h
  rw [← this]
  exact LawfulFmt.rnd_toK u

/-! ### The factor -/

/-- The factor that one rounding can change a number by. -/
noncomputable def rho : ℝ := 1 + 1 / 2 ^ 52

theorem one_le_rho : 1 ≤ rho := by unfold rho; norm_num
theorem one_le_rho_pow (k : ℕ) : 1 ≤ rho ^ k := one_le_pow₀ one_le_rho
theorem rho_pow_pos (k : ℕ) : 0 < rho ^ k := lt_of_lt_of_le one_pos (one_le_rho_pow k)
theorem rho_pow_mono {k l : ℕ} (h : k ≤ l) : rho ^ k ≤ rho ^ l := pow_le_pow_right₀ one_le_rho h

theorem rho_pow_le {k : ℕ} (hk : k ≤ 2 ^ 45) : rho ^ k ≤ 1 + 65 / 64 * (k / 2 ^ 52) := by
  induction k with
  | zero => simp
  | succ k ih =>
    have h1 := ih (by omega)
    have h2 : (k : ℝ) ≤ 2 ^ 45 := by
      have : k ≤ 2 ^ 45 := by omega
      exact_mod_cast this
    have h3 : (0 : ℝ) ≤ k := by positivity
    rw [pow_succ]
    calc rho ^ k * rho ≤ (1 + 65 / 64 * (k / 2 ^ 52)) * rho :=
          mul_le_mul_of_nonneg_right h1 (by linarith [one_le_rho])
      _ ≤ _ := by
        unfold rho
        push_cast
        nlinarith

theorem le_rho_pow (k : ℕ) : 1 + k / 2 ^ 52 ≤ rho ^ k := by
  have := one_add_mul_le_pow (a := (1 : ℝ) / 2 ^ 52) (by norm_num) k
  unfold rho
  linarith [this]

theorem rho_pow_le_two {k : ℕ} (hk : k ≤ 2 ^ 45) : rho ^ k ≤ 65 / 64 := by
  have h := rho_pow_le hk
  have : (k : ℝ) ≤ 2 ^ 45 := by exact_mod_cast hk
  linarith

/-! ### Numbers near a positive real -/

/-- `x` is a finite number within a factor `rho ^ k` of `r`, which lies in `[2^-B, 2^B]`. -/
def Near (k B : ℕ) (x : F64) (r : ℝ) : Prop :=
  ∃ a, IsReal x a ∧ 1 / 2 ^ B ≤ r ∧ r ≤ 2 ^ B ∧ a ≤ rho ^ k * r ∧ r ≤ rho ^ k * a

namespace Near
variable {k l B C : ℕ} {r s : ℝ}

theorem pos (h : Near k B x r) : 0 < r := by
  obtain ⟨a, _, h1, _⟩ := h
  exact lt_of_lt_of_le (by positivity) h1

theorem mono (h : Near k B x r) (hk : k ≤ l) (hB : B ≤ C) : Near l C x r := by
  have hr := h.pos
  obtain ⟨a, h0, h1, h2, h3, h4⟩ := h
  have ha : 0 < a := by
    by_contra hn
    have h5 : rho ^ k * a ≤ 0 := mul_nonpos_of_nonneg_of_nonpos (rho_pow_pos k).le (not_lt.mp hn)
    linarith
  have hp := rho_pow_mono hk
  refine ⟨a, h0, ?_, ?_, ?_, ?_⟩
  · refine le_trans ?_ h1
    exact one_div_le_one_div_of_le (by positivity) (pow_le_pow_right₀ (by norm_num) hB)
  · exact h2.trans (pow_le_pow_right₀ (by norm_num) hB)
  · exact h3.trans (mul_le_mul_of_nonneg_right hp hr.le)
  · exact h4.trans (mul_le_mul_of_nonneg_right hp ha.le)

theorem real_pos (h : IsReal x a) (hn : Near k B x r) : 0 < a := by
  have hr := hn.pos
  obtain ⟨a', h0, h1, h2, h3, h4⟩ := hn
  rw [h.inj h0]
  by_contra hn
  have h5 : rho ^ k * a' ≤ 0 := mul_nonpos_of_nonneg_of_nonpos (rho_pow_pos k).le (not_lt.mp hn)
  linarith

/-- Rounding adds one to the exponent. -/
theorem of_rnd {q : ℚ} {t : ℝ} (hq : (q : ℝ) = t) (hB1 : 1 / 2 ^ B ≤ r) (hB2 : r ≤ 2 ^ B)
    (h1 : t ≤ rho ^ k * r) (h2 : r ≤ rho ^ k * t) (hk : k ≤ 2 ^ 45) (hB : B ≤ 900) :
    Near (k + 1) B (Fmt.rnd q : F64) r := by
  have hr : 0 < r := lt_of_lt_of_le (by positivity) hB1
  have ht : 0 < t := by
    by_contra hn
    have h5 : rho ^ k * t ≤ 0 := mul_nonpos_of_nonneg_of_nonpos (rho_pow_pos k).le (not_lt.mp hn)
    linarith
  have hR := rho_pow_le_two hk
  have hR1 := one_le_rho_pow k
  have hup : t ≤ 2 ^ 1000 := by
    have e1 : (2 : ℝ) ^ B ≤ 2 ^ 900 := pow_le_pow_right₀ (by norm_num) hB
    have e2 : (2 : ℝ) ^ 1000 = 2 ^ 900 * 2 ^ 100 := by rw [← pow_add]
    have e3 : (2 : ℝ) ≤ 2 ^ 100 := by norm_num
    have e4 : (0 : ℝ) < 2 ^ 900 := by positivity
    calc t ≤ rho ^ k * r := h1
      _ ≤ 2 * 2 ^ 900 := by
        refine mul_le_mul (by linarith) (hB2.trans e1) hr.le (by norm_num)
      _ ≤ 2 ^ 1000 := by rw [e2, mul_comm]; exact mul_le_mul_of_nonneg_left e3 e4.le
  have hlo : 1 / 2 ^ 1075 ≤ t / 2 ^ 55 := by
    have e1 : (1 : ℝ) / 2 ^ 900 ≤ 1 / 2 ^ B :=
      one_div_le_one_div_of_le (by positivity) (pow_le_pow_right₀ (by norm_num) hB)
    have e2 : (1 : ℝ) / 2 ^ 1075 = 1 / 2 ^ 900 / 2 ^ 175 := by
      rw [div_div, ← pow_add]
    have e3 : r ≤ 2 * t := by nlinarith
    have e4 : (0 : ℝ) < 1 / 2 ^ 900 := by positivity
    have e5 : (1 : ℝ) / 2 ^ 900 ≤ 2 * t := e1.trans (hB1.trans e3)
    have e6 : (2 : ℝ) ^ 175 = 2 ^ 56 * 2 ^ 119 := by rw [← pow_add]
    rw [e2]
    calc (1 : ℝ) / 2 ^ 900 / 2 ^ 175 ≤ 1 / 2 ^ 900 / 2 ^ 56 :=
          div_le_div_of_nonneg_left e4.le (by positivity) (pow_le_pow_right₀ (by norm_num) (by norm_num))
      _ ≤ 2 * t / 2 ^ 56 := div_le_div_of_nonneg_right e5 (by positivity)
      _ = t / 2 ^ 55 := by ring
  obtain ⟨a, ha, hd⟩ := rnd_finite hq (by rwa [abs_of_pos ht])
  rw [abs_of_pos ht] at hd
  have hd2 : |a - t| ≤ t * (3 / 2 ^ 54) := by
    refine hd.trans ?_
    generalize (1 : ℝ) / 2 ^ 1075 = w at *
    linarith
  obtain ⟨d1, d2⟩ := abs_le.mp hd2
  have f1 : a ≤ rho * t := by
    unfold rho
    nlinarith
  have f2 : t ≤ rho * a := by
    unfold rho
    nlinarith
  refine ⟨a, ha, hB1, hB2, ?_, ?_⟩
  · rw [pow_succ]
    calc a ≤ rho * t := f1
      _ ≤ rho * (rho ^ k * r) := mul_le_mul_of_nonneg_left h1 (by linarith [one_le_rho])
      _ = _ := by ring
  · rw [pow_succ]
    calc r ≤ rho ^ k * t := h2
      _ ≤ rho ^ k * (rho * a) := mul_le_mul_of_nonneg_left f2 (rho_pow_pos k).le
      _ = _ := by ring

theorem add_le (h : Near k B x r) (h' : Near k B y s) (h1 : r + s ≤ 2 ^ B) (hk : k ≤ 2 ^ 45)
    (hB : B ≤ 900) : Near (k + 1) B (Ext.add x y) (r + s) := by
  have hr := h.pos
  have hs := h'.pos
  obtain ⟨a, ha, a1, a2, a3, a4⟩ := h
  obtain ⟨b, hb, b1, b2, b3, b4⟩ := h'
  obtain ⟨q, hq, e⟩ := ha.add_rnd hb
  rw [e]
  exact of_rnd hq (by linarith) h1 (by linarith) (by linarith) hk hB

theorem add (h : Near k B x r) (h' : Near l C y s) (hk : max k l ≤ 2 ^ 45 := by omega)
    (hB : max B C ≤ 899 := by omega) :
    Near (max k l + 1) (max B C + 1) (Ext.add x y) (r + s) := by
  have g := h.mono (le_max_left k l) (le_max_left B C)
  have g' := h'.mono (le_max_right k l) (le_max_right B C)
  have e : r + s ≤ 2 ^ (max B C + 1) := by
    obtain ⟨_, _, _, a2, _⟩ := g
    obtain ⟨_, _, _, b2, _⟩ := g'
    rw [pow_succ]
    linarith
  exact add_le (g.mono le_rfl (Nat.le_succ _)) (g'.mono le_rfl (Nat.le_succ _)) e hk (by omega)

theorem mul (h : Near k B x r) (h' : Near l C y s) (hk : k + l ≤ 2 ^ 45 := by omega)
    (hB : B + C ≤ 900 := by omega) :
    Near (k + l + 1) (B + C) (Ext.mul x y) (r * s) := by
  have hr := h.pos
  have hs := h'.pos
  obtain ⟨a, ha, a1, a2, a3, a4⟩ := h
  obtain ⟨b, hb, b1, b2, b3, b4⟩ := h'
  have a0 : 0 < a := by have := rho_pow_pos k; by_contra hn; nlinarith
  have b0 : 0 < b := by have := rho_pow_pos l; by_contra hn; nlinarith
  obtain ⟨q, hq, e⟩ := ha.mul_rnd hb
  rw [e]
  refine of_rnd hq ?_ ?_ ?_ ?_ hk hB
  · rw [pow_add, ← one_div_mul_one_div]
    exact mul_le_mul a1 b1 (by positivity) hr.le
  · rw [pow_add]
    exact mul_le_mul a2 b2 hs.le (by positivity)
  · rw [pow_add]
    calc a * b ≤ (rho ^ k * r) * (rho ^ l * s) :=
          mul_le_mul a3 b3 b0.le (mul_nonneg (rho_pow_pos k).le hr.le)
      _ = _ := by ring
  · rw [pow_add]
    calc r * s ≤ (rho ^ k * a) * (rho ^ l * b) :=
          mul_le_mul a4 b4 hs.le (mul_nonneg (rho_pow_pos k).le a0.le)
      _ = _ := by ring

theorem div (h : Near k B x r) (h' : Near l C y s) (hk : k + l ≤ 2 ^ 45 := by omega)
    (hB : B + C ≤ 900 := by omega) :
    Near (k + l + 1) (B + C) (Ext.div x y) (r / s) := by
  have hr := h.pos
  have hs := h'.pos
  obtain ⟨a, ha, a1, a2, a3, a4⟩ := h
  obtain ⟨b, hb, b1, b2, b3, b4⟩ := h'
  have a0 : 0 < a := by have := rho_pow_pos k; by_contra hn; nlinarith
  have b0 : 0 < b := by have := rho_pow_pos l; by_contra hn; nlinarith
  obtain ⟨q, hq, e⟩ := ha.div_rnd hb b0.ne'
  rw [e]
  refine of_rnd hq ?_ ?_ ?_ ?_ hk hB
  · rw [pow_add, ← one_div_mul_one_div, le_div_iff₀ hs, mul_assoc]
    calc 1 / 2 ^ B * (1 / 2 ^ C * s) ≤ 1 / 2 ^ B * 1 := by
          refine mul_le_mul_of_nonneg_left ?_ (by positivity)
          rw [one_div_mul_eq_div]
          exact (div_le_one (by positivity)).mpr b2
      _ ≤ r := by rw [mul_one]; exact a1
  · rw [pow_add, div_le_iff₀ hs, mul_assoc]
    calc r ≤ 2 ^ B * 1 := by rw [mul_one]; exact a2
      _ ≤ 2 ^ B * (2 ^ C * s) := by
        refine mul_le_mul_of_nonneg_left ?_ (by positivity)
        have := mul_le_mul_of_nonneg_left b1 (show (0 : ℝ) ≤ 2 ^ C by positivity)
        rwa [mul_one_div_cancel (by positivity)] at this
  · rw [pow_add, div_le_iff₀ b0]
    calc a ≤ rho ^ k * r := a3
      _ = rho ^ k * (r / s) * s := by field_simp
      _ ≤ rho ^ k * (r / s) * (rho ^ l * b) :=
          mul_le_mul_of_nonneg_left b4 (mul_nonneg (rho_pow_pos k).le (by positivity))
      _ = _ := by ring
  · rw [pow_add, div_le_iff₀ hs]
    calc r ≤ rho ^ k * a := a4
      _ = rho ^ k * (a / b) * b := by field_simp
      _ ≤ rho ^ k * (a / b) * (rho ^ l * s) :=
          mul_le_mul_of_nonneg_left b3 (mul_nonneg (rho_pow_pos k).le (by positivity))
      _ = _ := by ring

/-- Whole numbers are exact. -/
theorem nat {m : ℕ} (h : 1 ≤ m) (h' : m ≤ 2 ^ 53) : Near 0 53 (Fmt.rnd ((m : ℕ) : ℚ) : F64) m := by
  obtain ⟨b, hb⟩ := LawfulFmt.exact_nat (α := Bin64) (K := ℚ) m h'
  refine ⟨m, ⟨b, ?_, ?_⟩, ?_, ?_, ?_, ?_⟩
  · have := LawfulFmt.rnd_toK b
    rw [← this, hb]
  · have : b.1 = (m : ℚ) := hb
    rw [this]
    push_cast; rfl
  · have : (1 : ℝ) ≤ m := by exact_mod_cast h
    refine le_trans ?_ this
    norm_num
  · exact_mod_cast h'
  · simp
  · simp

/-- A relative error bound. -/
theorem of_rel {ε : ℝ} (hx : IsReal x a) (h1 : 1 / 2 ^ B ≤ r) (h2 : r ≤ 2 ^ B)
    (hε : |a - r| ≤ ε * r) (hk : 33 / 32 * ε ≤ k / 2 ^ 52) (hε2 : ε ≤ 1 / 33) : Near k B x r := by
  have hr : 0 < r := lt_of_lt_of_le (by positivity) h1
  obtain ⟨e1, e2⟩ := abs_le.mp hε
  have h3 := le_rho_pow k
  have hε0 : 0 ≤ ε := by
    by_contra hn
    have := abs_nonneg (a - r)
    nlinarith
  refine ⟨a, hx, h1, h2, ?_, ?_⟩
  · nlinarith
  · have : r * (1 - ε) ≤ a := by linarith
    calc r ≤ (1 + 33 / 32 * ε) * (r * (1 - ε)) := by nlinarith [mul_nonneg hr.le hε0]
      _ ≤ (1 + 33 / 32 * ε) * a := mul_le_mul_of_nonneg_left this (by linarith)
      _ ≤ rho ^ k * a := by
        refine mul_le_mul_of_nonneg_right (by linarith) ?_
        nlinarith

/-- The relative error. -/
theorem rel (h : Near k B x r) (hk : k ≤ 2 ^ 45) :
    ∃ a, IsReal x a ∧ |a - r| ≤ 65 / 64 * (k / 2 ^ 52) * r := by
  have hr := h.pos
  obtain ⟨a, ha, a1, a2, a3, a4⟩ := h
  have h1 := rho_pow_le hk
  have h2 := one_le_rho_pow k
  refine ⟨a, ha, abs_le.mpr ⟨?_, ?_⟩⟩
  · have : r * (2 - rho ^ k) ≤ a := by
      have h3 : 1 / rho ^ k * r ≤ a := by
        rw [one_div_mul_eq_div, div_le_iff₀ (rho_pow_pos k)]
        linarith
      have h4 : 2 - rho ^ k ≤ 1 / rho ^ k := by
        rw [le_div_iff₀ (rho_pow_pos k)]
        nlinarith [sq_nonneg (rho ^ k - 1)]
      nlinarith
    nlinarith
  · nlinarith

/-- Other bounds for the exact number. -/
theorem bounds (h : Near k B x r) (h1 : 1 / 2 ^ C ≤ r) (h2 : r ≤ 2 ^ C) : Near k C x r := by
  obtain ⟨a, ha, _, _, a3, a4⟩ := h
  exact ⟨a, ha, h1, h2, a3, a4⟩

theorem of_real (hx : IsReal x a) (h1 : 1 / 2 ^ B ≤ a) (h2 : a ≤ 2 ^ B) : Near k B x a := by
  have ha : 0 < a := lt_of_lt_of_le (by positivity) h1
  have := one_le_rho_pow k
  exact ⟨a, hx, h1, h2, by nlinarith, by nlinarith⟩

end Near

/-! ### Exact results -/

theorem isReal_rnd {q : ℚ} {a : ℝ} (h : rnd0 q = q) (hq : (q : ℝ) = a) (hb : |a| ≤ 2 ^ 1000) :
    IsReal (Fmt.rnd q : F64) a := by
  subst hq
  have hb' : |q| ≤ 2 ^ 1000 := by exact_mod_cast hb
  have : |rnd0 q| < 2 ^ 1024 := by
    rw [h]
    exact lt_of_le_of_lt hb' (pow_lt_pow_right₀ (by norm_num) (by norm_num))
  refine ⟨⟨rnd0 q, rnd0_idem q, this⟩, ?_, ?_⟩
  · rw [Bin64.rnd_def, Bin64.rnd, dif_pos this]
  · show ((rnd0 q : ℚ) : ℝ) = _
    rw [h]

theorem isReal_nat {m : ℕ} (h : m ≤ 2 ^ 53) : IsReal (Fmt.rnd ((m : ℕ) : ℚ) : F64) m := by
  refine isReal_rnd (rnd0_nat h) (by push_cast; rfl) ?_
  rw [abs_of_nonneg (by positivity)]
  have : (m : ℝ) ≤ 2 ^ 53 := by exact_mod_cast h
  exact this.trans (pow_le_pow_right₀ (by norm_num) (by norm_num))

/-- Adding zero is exact. -/
theorem IsReal.zero_add (hx : IsReal x a) : Ext.add (Fmt.rnd (0 : ℚ)) x = x := by
  have h0 : IsReal (Fmt.rnd (0 : ℚ) : F64) 0 := by
    have := isReal_nat (m := 0) (by norm_num)
    simpa using this
  obtain ⟨q, hq, e⟩ := h0.add_rnd hx
  rw [e]
  refine IsReal.rnd_exact ?_
  rwa [hq, _root_.zero_add]

theorem IsReal.one_mul (hx : IsReal x a) : Ext.mul (Fmt.rnd (1 : ℚ)) x = x := by
  have h0 : IsReal (Fmt.rnd (1 : ℚ) : F64) 1 := by
    have := isReal_nat (m := 1) (by norm_num)
    simpa using this
  obtain ⟨q, hq, e⟩ := h0.mul_rnd hx
  rw [e]
  refine IsReal.rnd_exact ?_
  rwa [hq, _root_.one_mul]

theorem IsReal.div_self (hx : IsReal x a) (ha : a ≠ 0) : Ext.div x x = Fmt.rnd (1 : ℚ) := by
  obtain ⟨q, hq, e⟩ := hx.div_rnd hx ha
  rw [e]
  have : (q : ℝ) = ((1 : ℚ) : ℝ) := by rw [hq, _root_.div_self ha]; simp
  rw [show q = 1 from by exact_mod_cast this]

end Cmaes
