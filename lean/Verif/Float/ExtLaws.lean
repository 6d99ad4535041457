import Verif.Float.Ext
import Mathlib.Tactic.Linarith
import Mathlib.Tactic.Positivity
import Mathlib.Algebra.Order.Floor.Semiring

/-!
# `Ext α` satisfies `FltLaws` for every lawful format
-/

set_option linter.unusedSectionVars false

namespace Cmaes

/-- The extended real denoted by an `Ext` value, given an embedding of the exact numbers. -/
noncomputable def Ext.valWith {α K : Type} [Fmt α K] (emb : K → ℝ) : Ext α → EReal
  | .nan => 0
  | .ninf => ⊥
  | .pinf => ⊤
  | .fin a => ((emb (Fmt.toK a) : ℝ) : EReal)

/-- What is required of a format. `emb` embeds the exact numbers into the reals. -/
class LawfulFmt (α : Type) (K : outParam Type) [Field K] [LinearOrder K] [FloorRing K]
    [Fmt α K] where
  emb : K →+* ℝ
  emb_lt : ∀ {x y : K}, emb x < emb y ↔ x < y
  toK_inj : ∀ {a b : α}, Fmt.toK a = Fmt.toK b → a = b
  rnd_toK : ∀ a : α, Fmt.rnd (Fmt.toK a) = Ext.fin a
  rnd_ne_nan : ∀ x : K, (Fmt.rnd x : Ext α) ≠ .nan
  toK_neg : ∀ a : α, Fmt.toK (Fmt.neg a) = -Fmt.toK a
  rnd_neg : ∀ x : K, (Fmt.rnd (-x) : Ext α) = (Fmt.rnd x : Ext α).neg
  rnd_mono : ∀ {x y : K}, x ≤ y →
    Ext.valWith emb (Fmt.rnd x : Ext α) ≤ Ext.valWith emb (Fmt.rnd y : Ext α)
  exact_nat : ∀ n : Nat, n ≤ 2 ^ 53 → ∃ a : α, Fmt.toK a = (n : K)
  rnd_div_nat : ∀ a b : Nat, a < 2 ^ 53 → 0 < b → b ≤ 2 ^ 53 → ∃ c : α,
    Fmt.rnd ((a : K) / (b : K)) = Ext.fin c ∧ ⌈(Fmt.toK c : K)⌉ = ⌈((a : ℚ) / (b : ℚ))⌉
  rnd_three_tenths : ∀ g : Nat, g ≤ 2 ^ 40 → ∃ t c : α,
    Fmt.rnd (3 / 10 : K) = Ext.fin t ∧ Fmt.rnd ((g : K) * Fmt.toK t) = Ext.fin c ∧
      ⌊(Fmt.toK c : K)⌋ = ((3 * g / 10 : ℕ) : ℤ)
  double : ∀ a c : α, Fmt.rnd (2 * Fmt.toK a) = Ext.fin c → Fmt.toK c = 2 * Fmt.toK a
  isNormal_ne : ∀ {a : α}, Fmt.isNormal a = true → Fmt.toK a ≠ 0

namespace Ext
variable {α K : Type} [Field K] [LinearOrder K] [IsStrictOrderedRing K] [FloorRing K] [Fmt α K]
  [LawfulFmt α K]

/-- The extended real denoted by an `Ext` value. -/
noncomputable def val (x : Ext α) : EReal := valWith (LawfulFmt.emb (α := α)) x

@[simp] theorem val_nan : (nan : Ext α).val = 0 := rfl
@[simp] theorem val_ninf : (ninf : Ext α).val = ⊥ := rfl
@[simp] theorem val_pinf : (pinf : Ext α).val = ⊤ := rfl
@[simp] theorem val_fin (a : α) :
    (fin a : Ext α).val = ((LawfulFmt.emb α (Fmt.toK a) : ℝ) : EReal) := rfl

theorem emb_lt {x y : K} : LawfulFmt.emb α x < LawfulFmt.emb α y ↔ x < y := LawfulFmt.emb_lt
theorem emb_le {x y : K} : LawfulFmt.emb α x ≤ LawfulFmt.emb α y ↔ x ≤ y := by
  rw [← not_lt, ← not_lt, emb_lt]
theorem emb_inj {x y : K} : LawfulFmt.emb α x = LawfulFmt.emb α y ↔ x = y := by
  rw [le_antisymm_iff, le_antisymm_iff, emb_le, emb_le]

section
variable [Libm (Ext α)]

theorem add_def (a b : Ext α) : a + b = add a b := rfl
theorem sub_def' (a b : Ext α) : a - b = sub a b := rfl
theorem mul_def (a b : Ext α) : a * b = mul a b := rfl
theorem div_def (a b : Ext α) : a / b = div a b := rfl
theorem neg_def (a : Ext α) : -a = neg a := rfl

theorem isNaN_rnd (x : K) : isNaN (Fmt.rnd x : Ext α) = false := by
  have h := LawfulFmt.rnd_ne_nan (α := α) x
  cases hx : (Fmt.rnd x : Ext α) <;> simp_all [isNaN]

/-- Half of a rounded sum is between the summands. -/
theorem half_sum {a b x : α} (hab : (Fmt.toK a : K) ≤ Fmt.toK b)
    (hx : (Fmt.rnd (Fmt.toK a + Fmt.toK b : K) : Ext α) = fin x) :
    (Fmt.toK a : K) ≤ Fmt.toK x / 2 ∧ (Fmt.toK x / 2 : K) ≤ Fmt.toK b := by
  have m1 := LawfulFmt.rnd_mono (α := α) (x := 2 * Fmt.toK a) (y := Fmt.toK a + Fmt.toK b)
    (by linarith)
  have m2 := LawfulFmt.rnd_mono (α := α) (y := 2 * Fmt.toK b) (x := Fmt.toK a + Fmt.toK b)
    (by linarith)
  rw [hx] at m1 m2
  constructor
  · cases h : (Fmt.rnd (2 * Fmt.toK a : K) : Ext α) with
    | nan => exact absurd h (LawfulFmt.rnd_ne_nan _)
    | pinf => rw [h] at m1; simp [valWith] at m1
    | fin c =>
      have := LawfulFmt.double a c h
      rw [h] at m1
      simp only [valWith, EReal.coe_le_coe_iff, emb_le] at m1
      linarith
    | ninf =>
      by_contra hlt
      have := LawfulFmt.rnd_mono (α := α) (x := Fmt.toK x) (y := 2 * Fmt.toK a) (by linarith)
      rw [h, LawfulFmt.rnd_toK] at this
      simp [valWith] at this
  · cases h : (Fmt.rnd (2 * Fmt.toK b : K) : Ext α) with
    | nan => exact absurd h (LawfulFmt.rnd_ne_nan _)
    | ninf => rw [h] at m2; simp [valWith] at m2
    | fin c =>
      have := LawfulFmt.double b c h
      rw [h] at m2
      simp only [valWith, EReal.coe_le_coe_iff, emb_le] at m2
      linarith
    | pinf =>
      by_contra hlt
      have := LawfulFmt.rnd_mono (α := α) (y := Fmt.toK x) (x := 2 * Fmt.toK b) (by linarith)
      rw [h, LawfulFmt.rnd_toK] at this
      simp [valWith] at this

theorem add_top' {a b : Ext α} (hn : isNaN a = false) (ha : a.val = ⊤)
    (hab : isNaN (add a b) = false) : (add a b).val = ⊤ := by
  cases a with
  | fin a => simp at ha
  | nan => simp [isNaN] at hn
  | ninf => simp at ha
  | pinf => cases b <;> simp_all [add, isNaN]

@[simp] theorem neg_nan : (neg nan : Ext α) = nan := rfl
@[simp] theorem neg_ninf : (neg ninf : Ext α) = pinf := rfl
@[simp] theorem neg_pinf : (neg pinf : Ext α) = ninf := rfl
@[simp] theorem neg_fin (a : α) : (neg (fin a) : Ext α) = fin (Fmt.neg a) := rfl

theorem neg_neg' (a : Ext α) : neg (neg a) = a := by
  cases a with
  | fin a =>
    simp only [neg]
    congr 1
    apply LawfulFmt.toK_inj
    rw [LawfulFmt.toK_neg, LawfulFmt.toK_neg, neg_neg]
  | _ => rfl

theorem div_neg_left (a b : Ext α) : div (neg a) b = neg (div a b) := by
  cases a with
  | nan => rfl
  | ninf =>
    cases b with
    | fin b => by_cases h : 0 ≤ (Fmt.toK b : K) <;> simp [div, sinf, h]
    | _ => rfl
  | pinf =>
    cases b with
    | fin b => by_cases h : 0 ≤ (Fmt.toK b : K) <;> simp [div, sinf, h]
    | _ => rfl
  | fin a =>
    have h0 : (Fmt.rnd (0 : K) : Ext α) = neg (Fmt.rnd (0 : K)) := by
      conv_lhs => rw [← neg_zero, LawfulFmt.rnd_neg]
    cases b with
    | nan => rfl
    | ninf => simpa [div] using h0
    | pinf => simpa [div] using h0
    | fin b =>
      simp only [neg_fin, div, LawfulFmt.toK_neg, neg_eq_zero]
      split
      · split
        · rfl
        · rename_i hne
          rcases lt_or_gt_of_ne hne with h | h
          · have h' : 0 < -(Fmt.toK a : K) := by simpa using h
            simp [sinf, h, not_lt.mpr h.le]
          · have h' : ¬ 0 < -(Fmt.toK a : K) := by simpa using h.le
            simp [sinf, h, not_lt.mpr h.le]
      · rw [_root_.neg_div, LawfulFmt.rnd_neg]

theorem val_inj' {a b : Ext α} (ha : Flt.isNaN a = false) (hb : Flt.isNaN b = false)
    (h : val a = val b) : a = b := by
  cases a <;> cases b <;>
    simp_all [Flt.isNaN, isNaN, EReal.coe_eq_coe_iff]
  rename_i a b
  exact LawfulFmt.toK_inj (emb_inj.mp h)

theorem neg_add' (a b : Ext α) : -(a + b) = -a + -b := by
  cases a <;> cases b <;> simp only [neg_def, add_def, neg_nan, neg_ninf, neg_pinf, neg_fin, add]
  rename_i a b
  rw [LawfulFmt.toK_neg, LawfulFmt.toK_neg, ← neg_add, LawfulFmt.rnd_neg]

noncomputable instance instLaws : FltLaws (Ext α) where
  val := val
  val_inj_ne ha hb h _ := val_inj' ha hb h
  isNaN_eq {a} h := by cases a <;> simp_all [Flt.isNaN, isNaN]; rfl
  isNaN_nan := rfl
  isNaN_inf := rfl
  val_inf := rfl
  lt_iff {a b} := by
    cases a <;> cases b <;> simp [Flt.isNaN, isNaN, Flt.lt, lt, emb_lt]
  le_iff {a b} := by
    cases a <;> cases b <;> simp [Flt.isNaN, isNaN, Flt.le, le, emb_le]
  feq_iff {a b} := by
    cases a <;> cases b <;> simp [Flt.isNaN, isNaN, Flt.feq, feq, emb_inj]
  isNaN_ofRat q := isNaN_rnd _
  val_ofRat_mono {p q} h := by
    show val (Fmt.rnd (p : K)) ≤ val (Fmt.rnd (q : K))
    exact LawfulFmt.rnd_mono (by exact_mod_cast h)
  val_ofNat n hn := by
    show val (Fmt.rnd (((n : ℚ)) : K)) = _
    obtain ⟨a, ha⟩ := LawfulFmt.exact_nat (α := α) (K := K) n hn
    have : (((n : ℚ)) : K) = Fmt.toK a := by rw [ha]; simp
    rw [this, LawfulFmt.rnd_toK, val_fin, ha]
    simp
  isNaN_neg a := by cases a <;> rfl
  val_neg a := by
    cases a with
    | fin a => simp [neg_def, neg, LawfulFmt.toK_neg]
    | _ => simp [neg_def, neg]
  sub_def a b := rfl
  neg_neg a := by
    cases a with
    | fin a =>
      show Ext.fin (Fmt.neg (Fmt.neg a)) = .fin a
      congr 1
      exact LawfulFmt.toK_inj (by rw [LawfulFmt.toK_neg, LawfulFmt.toK_neg, _root_.neg_neg])
    | _ => rfl
  abs_neg a := by
    cases a with
    | fin a =>
      show (if Fmt.toK (Fmt.neg a) < (0 : K) then Ext.fin (Fmt.neg (Fmt.neg a)) else .fin (Fmt.neg a)) =
        if Fmt.toK a < (0 : K) then .fin (Fmt.neg a) else .fin a
      have hnn : Fmt.neg (Fmt.neg a) = a :=
        LawfulFmt.toK_inj (by rw [LawfulFmt.toK_neg, LawfulFmt.toK_neg, _root_.neg_neg])
      rw [hnn, LawfulFmt.toK_neg]
      rcases lt_trichotomy (Fmt.toK a : K) 0 with h | h | h
      · rw [if_pos h, if_neg (by linarith)]
      · have : Fmt.neg a = a := LawfulFmt.toK_inj (by rw [LawfulFmt.toK_neg, h, neg_zero])
        rw [this, ite_self, ite_self]
      · rw [if_pos (by linarith), if_neg (by linarith)]
    | _ => rfl
  abs_zero {a} ha h := by
    obtain ⟨z, hz⟩ := LawfulFmt.exact_nat (α := α) (K := K) 0 (by norm_num)
    have e0 : (0 : Ext α) = fin z := by
      show (Fmt.rnd (((0 : ℕ) : ℚ) : K) : Ext α) = _
      rw [← LawfulFmt.rnd_toK z, hz]; simp
    have hz' : (Fmt.toK z : K) = 0 := by rw [hz]; simp
    have e : a = fin z := val_inj' ha rfl (by rw [h, val_fin, hz']; simp)
    rw [e0, e]
    show (if Fmt.toK z < (0 : K) then Ext.fin (Fmt.neg z) else .fin z) = _
    rw [hz', if_neg (lt_irrefl _)]
  half_zero {a} ha h := by
    obtain ⟨z, hz⟩ := LawfulFmt.exact_nat (α := α) (K := K) 0 (by norm_num)
    obtain ⟨t, ht⟩ := LawfulFmt.exact_nat (α := α) (K := K) 2 (by norm_num)
    have h2 : (2 : Ext α) = fin t := by
      show (Fmt.rnd (((2 : ℕ) : ℚ) : K) : Ext α) = _
      rw [← LawfulFmt.rnd_toK t, ht]; simp
    have ht' : (Fmt.toK t : K) = 2 := by rw [ht]; norm_num
    have hz' : (Fmt.toK z : K) = 0 := by rw [hz]; simp
    have e : a = fin z := val_inj' ha rfl (by rw [h, val_fin, hz']; simp)
    rw [h2, e, div_def]
    show val (if Fmt.toK t = (0 : K) then _ else Fmt.rnd (Fmt.toK z / Fmt.toK t)) = 0
    rw [ht', if_neg (by norm_num), hz', zero_div, ← hz', LawfulFmt.rnd_toK, val_fin, hz']
    simp
  mul_zeros hb hb' h h' := by rw [val_inj' hb hb' (h.trans h'.symm)]; exact ⟨rfl, rfl⟩
  div_zeros hb hb' h h' := by rw [val_inj' hb hb' (h.trans h'.symm)]; exact ⟨rfl, rfl⟩
  neg_div a b := div_neg_left a b
  add_comm a b := by
    cases a <;> cases b <;> simp only [add_def, add]
    rw [_root_.add_comm]
  isNaN_abs a := by
    cases a <;> simp only [Flt.abs, abs, Flt.isNaN] <;> first | rfl | (split <;> rfl)
  val_abs {a} ha := by
    cases a with
    | nan => simp [Flt.isNaN, isNaN] at ha
    | ninf => simp [Flt.abs, abs]
    | pinf => simp [Flt.abs, abs]
    | fin a =>
      simp only [Flt.abs, abs]
      have hz : (LawfulFmt.emb α (0 : K)) = 0 := map_zero _
      split
      · rename_i h
        have : LawfulFmt.emb α (Fmt.toK a) < 0 := by rw [← hz]; exact emb_lt.mpr h
        simp only [val_fin, LawfulFmt.toK_neg, map_neg]
        rw [max_eq_right]
        · simp
        · rw [← EReal.coe_neg, EReal.coe_le_coe_iff]; linarith
      · rename_i h
        have : 0 ≤ LawfulFmt.emb α (Fmt.toK a) := by rw [← hz]; exact emb_le.mpr (not_lt.mp h)
        rw [max_eq_left]
        simp only [val_fin]
        rw [← EReal.coe_neg, EReal.coe_le_coe_iff]; linarith
  isNaN_add_left {a b} h := by
    cases a <;> simp_all [Flt.isNaN, isNaN]
    simp [add_def, add]
  isNaN_add {a b} := by
    cases a <;> cases b <;>
      simp [Flt.isNaN, add_def, add, isNaN_rnd] <;> simp [isNaN]
  div_one a := by
    obtain ⟨t, ht⟩ := LawfulFmt.exact_nat (α := α) (K := K) 1 (by norm_num)
    have h1 : (1 : Ext α) = fin t := by
      show (Fmt.rnd (((1 : ℕ) : ℚ) : K) : Ext α) = _
      rw [← LawfulFmt.rnd_toK t, ht]; simp
    have ht' : (Fmt.toK t : K) = 1 := by rw [ht]; norm_num
    rw [h1]
    cases a <;> simp [div_def, div, ht', sinf, LawfulFmt.rnd_toK]
  isNaN_half a := by
    obtain ⟨t, ht⟩ := LawfulFmt.exact_nat (α := α) (K := K) 2 (by norm_num)
    have h2 : (2 : Ext α) = fin t := by
      show (Fmt.rnd (((2 : ℕ) : ℚ) : K) : Ext α) = _
      rw [← LawfulFmt.rnd_toK t, ht]; simp
    have ht' : (Fmt.toK t : K) = 2 := by rw [ht]; norm_num
    rw [h2]
    cases a <;> simp [Flt.isNaN, div_def, div, ht', isNaN_rnd] <;> simp [isNaN, sinf]
  add_top {a b} := add_top'
  mean_between {a b} ha hb hab h1 h2 := by
    obtain ⟨t, ht⟩ := LawfulFmt.exact_nat (α := α) (K := K) 2 (by norm_num)
    have e2 : (2 : Ext α) = fin t := by
      show (Fmt.rnd (((2 : ℕ) : ℚ) : K) : Ext α) = _
      rw [← LawfulFmt.rnd_toK t, ht]; simp
    have ht' : (Fmt.toK t : K) = 2 := by rw [ht]; norm_num
    rw [e2]
    cases a <;> cases b <;>
      first
        | (simp [Flt.isNaN, add_def, add, isNaN] at h1; done)
        | (simp [Flt.isInf, add_def, add, isInf] at h2; done)
        | skip
    rename_i a b
    rw [val_fin, val_fin, EReal.coe_le_coe_iff, emb_le] at hab
    have hs : (fin a + fin b : Ext α) = Fmt.rnd (Fmt.toK a + Fmt.toK b : K) := rfl
    rw [hs] at h1 h2 ⊢
    cases hx : (Fmt.rnd (Fmt.toK a + Fmt.toK b : K) : Ext α) with
    | nan => exact absurd hx (LawfulFmt.rnd_ne_nan _)
    | ninf => rw [hx] at h2; simp [Flt.isInf, isInf] at h2
    | pinf => rw [hx] at h2; simp [Flt.isInf, isInf] at h2
    | fin x =>
      obtain ⟨k1, k2⟩ := half_sum hab hx
      have hd : (fin x / fin t : Ext α) = Fmt.rnd (Fmt.toK x / 2 : K) := by
        simp [div_def, div, ht']
      rw [hd]
      have e : ∀ z : α, val (fin z : Ext α) = val (Fmt.rnd (Fmt.toK z : K) : Ext α) := by
        intro z; rw [LawfulFmt.rnd_toK]
      rw [e a, e b]
      exact ⟨LawfulFmt.rnd_mono k1, LawfulFmt.rnd_mono k2⟩
  add_le_add_right {a b c} h1 h2 h := by
    cases a <;> cases b <;> cases c <;>
      first
        | (simp [Flt.isNaN, add_def, add, isNaN] at h1; done)
        | (simp [Flt.isNaN, add_def, add, isNaN] at h2; done)
        | (simp at h; done)
        | (simp [add_def, add]; done)
        | skip
    rename_i a b c
    rw [val_fin, val_fin, EReal.coe_le_coe_iff, emb_le] at h
    exact LawfulFmt.rnd_mono (by linarith)
  add_neg_self {a} h := by
    cases a with
    | fin a =>
      obtain ⟨z, hz⟩ := LawfulFmt.exact_nat (α := α) (K := K) 0 (by norm_num)
      show val (Fmt.rnd (Fmt.toK a + Fmt.toK (Fmt.neg a))) = 0
      rw [LawfulFmt.toK_neg, add_neg_cancel]
      have : (0 : K) = Fmt.toK z := by rw [hz]; simp
      rw [this, LawfulFmt.rnd_toK, val_fin, hz]
      simp
    | _ => simp [Flt.isNaN, add_def, neg_def, add, isNaN] at h
  mul_ofNat a b ha hb hab := by
    obtain ⟨a', ha'⟩ := LawfulFmt.exact_nat (α := α) (K := K) a ha
    obtain ⟨b', hb'⟩ := LawfulFmt.exact_nat (α := α) (K := K) b hb
    show mul (Fmt.rnd ((a : ℚ) : K)) (Fmt.rnd ((b : ℚ) : K)) = Fmt.rnd (((a * b : ℕ) : ℚ) : K)
    have e1 : ((a : ℚ) : K) = Fmt.toK a' := by rw [ha']; simp
    have e2 : ((b : ℚ) : K) = Fmt.toK b' := by rw [hb']; simp
    rw [e1, e2, LawfulFmt.rnd_toK, LawfulFmt.rnd_toK, mul, ha', hb']
    push_cast; rfl
  toUsize_ceil_div a b ha hb hb' := by
    obtain ⟨a', ha'⟩ := LawfulFmt.exact_nat (α := α) (K := K) a ha.le
    obtain ⟨b', hb''⟩ := LawfulFmt.exact_nat (α := α) (K := K) b hb'
    obtain ⟨c, hc, hceil⟩ := LawfulFmt.rnd_div_nat (α := α) (K := K) a b ha hb hb'
    show toUsize (ceil (div (Fmt.rnd ((a : ℚ) : K)) (Fmt.rnd ((b : ℚ) : K)))) = _
    have e1 : ((a : ℚ) : K) = Fmt.toK a' := by rw [ha']; simp
    have e2 : ((b : ℚ) : K) = Fmt.toK b' := by rw [hb'']; simp
    have hb0 : (b : K) ≠ 0 := by exact_mod_cast hb.ne'
    rw [e1, e2, LawfulFmt.rnd_toK, LawfulFmt.rnd_toK, div, ha', hb'', if_neg hb0, hc, ceil, hceil]
    have hn : ⌈(a : ℚ) / b⌉ = ((⌈(a : ℚ) / b⌉₊ : ℕ) : ℤ) :=
      (Int.natCast_ceil_eq_ceil (by positivity)).symm
    have hle : ⌈(a : ℚ) / b⌉₊ ≤ 2 ^ 53 := by
      rw [Nat.ceil_le]
      have hbq : (1 : ℚ) ≤ b := by exact_mod_cast hb
      have : (a : ℚ) / b ≤ a := div_le_self (by positivity) hbq
      have : (a : ℚ) ≤ ((2 ^ 53 : ℕ) : ℚ) := by exact_mod_cast ha.le
      exact le_trans ‹(a : ℚ) / b ≤ a› this
    obtain ⟨d, hd⟩ := LawfulFmt.exact_nat (α := α) (K := K) _ hle
    rw [hn, Int.cast_natCast, ← hd, LawfulFmt.rnd_toK, toUsize, hd]
    rw [Int.floor_natCast]
    omega
  three_tenths g hg := by
    obtain ⟨a', ha'⟩ := LawfulFmt.exact_nat (α := α) (K := K) g (by omega)
    obtain ⟨t, c, ht, hc, hf⟩ := LawfulFmt.rnd_three_tenths (α := α) (K := K) g hg
    show toUsize (mul (Fmt.rnd ((g : ℚ) : K)) (Fmt.rnd (((3 / 10 : ℚ)) : K))) = _
    have e1 : ((g : ℚ) : K) = Fmt.toK a' := by rw [ha']; simp
    have e2 : (((3 / 10 : ℚ)) : K) = 3 / 10 := by norm_num
    rw [e1, e2, LawfulFmt.rnd_toK, ht, mul, ha', hc, toUsize, hf]
    omega
  five_percent e he := by
    obtain ⟨a', ha'⟩ := LawfulFmt.exact_nat (α := α) (K := K) e he
    obtain ⟨o', ho'⟩ := LawfulFmt.exact_nat (α := α) (K := K) 1 (by norm_num)
    show e ≤ toUsize (mul (Fmt.rnd ((e : ℚ) : K)) (Fmt.rnd (((105 / 100 : ℚ)) : K)))
    have e1 : ((e : ℚ) : K) = Fmt.toK a' := by rw [ha']; simp
    rw [e1, LawfulFmt.rnd_toK]
    have m1 := LawfulFmt.rnd_mono (α := α) (x := Fmt.toK o') (y := (((105 / 100 : ℚ)) : K))
      (by rw [ho']; norm_num)
    rw [LawfulFmt.rnd_toK] at m1
    cases ht : (Fmt.rnd (((105 / 100 : ℚ)) : K) : Ext α) with
    | nan => exact absurd ht (LawfulFmt.rnd_ne_nan _)
    | ninf => rw [ht] at m1; simp [valWith] at m1
    | pinf =>
      show e ≤ toUsize (infMul true (Fmt.toK a'))
      rcases Nat.eq_zero_or_pos e with rfl | hpos
      · exact Nat.zero_le _
      · have h0 : (0 : K) < Fmt.toK a' := by rw [ha']; exact_mod_cast hpos
        rw [infMul, if_neg h0.ne', decide_eq_true h0]
        show e ≤ 2 ^ 64 - 1
        omega
    | fin t =>
      rw [ht] at m1
      have h1 : (Fmt.toK o' : K) ≤ Fmt.toK t := by
        have : ((LawfulFmt.emb α (Fmt.toK o') : ℝ) : EReal) ≤ (LawfulFmt.emb α (Fmt.toK t) : ℝ) := m1
        rw [EReal.coe_le_coe_iff, emb_le] at this
        exact this
      rw [ho', Nat.cast_one] at h1
      have h0 : (0 : K) ≤ Fmt.toK a' := by rw [ha']; exact_mod_cast Nat.zero_le e
      have m2 := LawfulFmt.rnd_mono (α := α) (x := Fmt.toK a') (y := Fmt.toK a' * Fmt.toK t)
        (by nlinarith)
      rw [LawfulFmt.rnd_toK] at m2
      show e ≤ toUsize (Fmt.rnd (Fmt.toK a' * Fmt.toK t))
      cases hc : (Fmt.rnd (Fmt.toK a' * Fmt.toK t : K) : Ext α) with
      | nan => exact absurd hc (LawfulFmt.rnd_ne_nan _)
      | ninf => rw [hc] at m2; simp [valWith] at m2
      | pinf => show e ≤ 2 ^ 64 - 1; omega
      | fin c =>
        rw [hc] at m2
        have h2 : (Fmt.toK a' : K) ≤ Fmt.toK c := by
          have : ((LawfulFmt.emb α (Fmt.toK a') : ℝ) : EReal) ≤ (LawfulFmt.emb α (Fmt.toK c) : ℝ) := m2
          rw [EReal.coe_le_coe_iff, emb_le] at this
          exact this
        rw [ha'] at h2
        have h3 : (e : ℤ) ≤ ⌊(Fmt.toK c : K)⌋ := Int.le_floor.mpr (by exact_mod_cast h2)
        rw [toUsize]
        omega
  val_neg_add a b := by
    rw [← neg_add']
    generalize a + b = c
    cases c <;> simp [neg_def, LawfulFmt.toK_neg]
  zero_add {a} ha := by
    obtain ⟨z, hz⟩ := LawfulFmt.exact_nat (α := α) (K := K) 0 (by norm_num)
    show val (add (Fmt.rnd (((0 : ℕ) : ℚ) : K)) a) = val a
    have e0 : (((0 : ℕ) : ℚ) : K) = Fmt.toK z := by rw [hz]; simp
    rw [e0, LawfulFmt.rnd_toK]
    cases a with
    | nan => simp [Flt.isNaN, isNaN] at ha
    | pinf => rfl
    | ninf => rfl
    | fin a =>
      show val (Fmt.rnd (Fmt.toK z + Fmt.toK a)) = _
      rw [hz, Nat.cast_zero, _root_.zero_add, LawfulFmt.rnd_toK]
  zero_mul {a} ha := by
    obtain ⟨z, hz⟩ := LawfulFmt.exact_nat (α := α) (K := K) 0 (by norm_num)
    have e0 : (((0 : ℕ) : ℚ) : K) = Fmt.toK z := by rw [hz]; simp
    have ha' : isNaN (mul (Fmt.rnd (((0 : ℕ) : ℚ) : K)) a) = false := ha
    show val (mul (Fmt.rnd (((0 : ℕ) : ℚ) : K)) a) = 0
    rw [e0, LawfulFmt.rnd_toK] at ha' ⊢
    cases a with
    | nan => simp [mul, isNaN] at ha'
    | pinf => simp [mul, infMul, hz, isNaN] at ha'
    | ninf => simp [mul, infMul, hz, isNaN] at ha'
    | fin a =>
      show val (Fmt.rnd (Fmt.toK z * Fmt.toK a)) = _
      have hz0 : Fmt.toK z * Fmt.toK a = Fmt.toK z := by rw [hz]; simp
      rw [hz0, LawfulFmt.rnd_toK]
      show ((LawfulFmt.emb α (Fmt.toK z) : ℝ) : EReal) = 0
      rw [hz]
      simp
  isInf_iff {a} := by cases a <;> simp [Flt.isInf, isInf, Flt.isNaN, isNaN]
  isNormal_imp {a} h := by
    cases a with
    | fin a =>
      have h0 : Fmt.toK a ≠ (0 : K) := LawfulFmt.isNormal_ne h
      have h1 : LawfulFmt.emb α (Fmt.toK a) ≠ 0 := by
        rw [← map_zero (LawfulFmt.emb α)]; exact fun h => h0 (emb_inj.mp h)
      simp [Flt.isNaN, isNaN, h1]
    | _ => simp [Flt.isNormal, isNormal] at h

noncomputable instance instOneZero : OneZero (Ext α) where
  val_inj := val_inj'
  neg_add := neg_add'

end
end Ext
end Cmaes
