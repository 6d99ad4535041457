import Verif.Model.FormatNum
import Verif.Spec.Format
import Mathlib.Data.Nat.Digits.Lemmas
import Mathlib.Tactic.IntervalCases

/-!
# Lemmas on number formatting
-/

namespace Cmaes.Format

open Printed

theorem digit_cases {d : Nat} (h : d < 10) :
    digitValue (Nat.digitChar d) = some d ∧ IsDigit (Nat.digitChar d) ∧
      (Nat.digitChar d).toNat - '0'.toNat = d := by
  unfold IsDigit
  interval_cases d <;> decide

theorem isDigit_ne {c : Char} (h : IsDigit c) : c ≠ 'e' ∧ c ≠ '.' ∧ c ≠ '-' ∧ c ≠ '+' := by
  unfold IsDigit at h
  simp only [List.mem_cons, List.not_mem_nil, or_false] at h
  rcases h with h | h | h | h | h | h | h | h | h | h <;> subst h <;> decide

theorem natText_digits (k : Nat) : ∀ c ∈ natText k, IsDigit c := by
  intro c hc
  unfold natText at hc
  split at hc
  · simp only [List.mem_singleton] at hc
    subst hc
    exact (digit_cases (d := 0) (by norm_num)).2.1
  · simp only [List.mem_map, List.mem_reverse] at hc
    obtain ⟨d, hd, rfl⟩ := hc
    exact (digit_cases (Nat.digits_lt_base (by norm_num) hd)).2.1

theorem natText_ne_nil (k : Nat) : natText k ≠ [] := by
  unfold natText
  split
  · simp
  · rename_i h
    simp [Nat.digits_ne_nil_iff_ne_zero.2 h]

theorem number_append (a b : List Char) :
    number (a ++ b) = b.foldl (fun a c => 10 * a + (c.toNat - '0'.toNat)) (number a) := by
  simp [number]

theorem number_zeros (k : Nat) (cs : List Char) :
    number (List.replicate k '0' ++ cs) = number cs := by
  induction k with
  | zero => simp
  | succ k ih => rw [List.replicate_succ, ← ih]; simp [number]

theorem number_map (ds : List Nat) (h : ∀ d ∈ ds, d < 10) :
    number (ds.reverse.map Nat.digitChar) = Nat.ofDigits 10 ds := by
  induction ds with
  | nil => rfl
  | cons d ds ih =>
    rw [List.reverse_cons, List.map_append, number_append, ih fun x hx => h x (by simp [hx]),
      Nat.ofDigits_cons]
    simp only [List.map_cons, List.map_nil, List.foldl_cons, List.foldl_nil,
      (digit_cases (h d (by simp))).2.2]
    simp [add_comm]

theorem number_natText (k : Nat) : number (natText k) = k := by
  unfold natText
  split
  · rename_i h; subst h; rfl
  · rw [number_map _ fun d hd => Nat.digits_lt_base (by norm_num) hd, Nat.ofDigits_digits]

theorem parse_fold (cs : List Char) (h : ∀ c ∈ cs, IsDigit c) (a : Nat) :
    cs.foldl (fun acc c => do
      let a ← acc
      let d ← digitValue c
      some (10 * a + d)) (some a) =
    some (cs.foldl (fun a c => 10 * a + (c.toNat - '0'.toNat)) a) := by
  induction cs generalizing a with
  | nil => rfl
  | cons c cs ih =>
    have hv : digitValue c = some (c.toNat - '0'.toNat) := by
      have := h c (by simp)
      unfold IsDigit at this
      simp only [List.mem_cons, List.not_mem_nil, or_false] at this
      rcases this with h | h | h | h | h | h | h | h | h | h <;> subst h <;> decide
    rw [List.foldl_cons, List.foldl_cons, ← ih fun x hx => h x (by simp [hx])]
    congr 1
    simp [hv]

theorem parseNat_eq (cs : List Char) (h : ∀ c ∈ cs, IsDigit c) (hn : cs ≠ []) :
    parseNat cs = some (number cs) := by
  cases cs with
  | nil => exact absurd rfl hn
  | cons c cs => exact parse_fold (c :: cs) h 0

theorem parseNat_natText (k : Nat) : parseNat (natText k) = some k := by
  rw [parseNat_eq _ (natText_digits k) (natText_ne_nil k), number_natText]

theorem parseSigned_intText (z : Int) : parseSigned (intText z) = some z := by
  unfold intText
  by_cases hz : z < 0
  · rw [if_pos hz]
    show (parseNat (natText z.natAbs)).map (fun k : Nat => -(k : Int)) = some z
    rw [parseNat_natText, Option.map_some]
    congr 1
    omega
  · rw [if_neg hz]
    generalize hk : z.natAbs = k
    have hp := parseNat_natText k
    have hd := natText_digits k
    rcases ht : natText k with _ | ⟨c, cs⟩
    · exact absurd ht (natText_ne_nil k)
    · have hc := isDigit_ne (hd c (by simp [ht]))
      rw [ht] at hp
      unfold parseSigned
      split
      · rename_i heq; cases heq; exact absurd rfl hc.2.2.1
      · rename_i heq; cases heq; exact absurd rfl hc.2.2.2
      · rw [hp, Option.map_some]
        congr 1
        simp only [Int.ofNat_eq_natCast]
        omega

theorem parseInt_intText {z : Int} (h : -2 ^ 31 ≤ z ∧ z < 2 ^ 31) :
    parseInt (intText z) = some z := by
  unfold parseInt
  rw [parseSigned_intText, Option.filter_some, if_pos (by simpa using h)]

theorem natText_length_le {k n : Nat} (hn : 1 ≤ n) (h : k < 10 ^ n) :
    (natText k).length ≤ n := by
  unfold natText
  split
  · simpa using hn
  · simp only [List.length_map, List.length_reverse]
    exact (Nat.digits_length_le_iff (by norm_num) k).2 h

theorem lt_natText_length {k n : Nat} (h : 10 ^ n ≤ k) : n < (natText k).length := by
  unfold natText
  have : k ≠ 0 := by
    have : 0 < 10 ^ n := by positivity
    omega
  rw [if_neg this]
  simp only [List.length_map, List.length_reverse]
  exact (Nat.lt_digits_length_iff (by norm_num) k).2 h

theorem natText_head {k : Nat} (h : k ≠ 0) : (natText k).head? ≠ some '0' := by
  unfold natText
  rw [if_neg h]
  rw [List.head?_map, List.head?_reverse]
  have hl := Nat.getLast_digit_ne_zero 10 h
  have hne : Nat.digits 10 k ≠ [] := Nat.digits_ne_nil_iff_ne_zero.2 h
  rw [List.getLast?_eq_getLast_of_ne_nil hne]
  have hlt := Nat.digits_lt_base (b := 10) (by norm_num) (List.getLast_mem hne)
  generalize (Nat.digits 10 k).getLast hne = d at hl hlt
  interval_cases d <;> first | exact absurd rfl hl | decide

theorem split_two {a b : List Char} (ha : 'e' ∉ a) (hb : 'e' ∉ b) :
    (a ++ 'e' :: b).splitOn 'e' = [a, b] := by
  have := List.splitOn_intercalate (ls := [a, b]) 'e' (by simp [ha, hb]) (by simp)
  simpa [List.intercalate] using this

theorem decimal_spec (p : Nat) {q : ℚ} (hq : 0 < q) :
    10 ^ p ≤ (decimal p q).1 ∧ (decimal p q).1 < 10 ^ (p + 1) ∧
    |q - ((decimal p q).1 : ℚ) / 10 ^ p * 10 ^ (decimal p q).2| ≤
      10 ^ (Int.log 10 q) / 10 ^ p / 2 ∧
    ((decimal p q).2 = Int.log 10 q ∨
      (decimal p q).2 = Int.log 10 q + 1 ∧
        roundEven (q / 10 ^ Int.log 10 q * 10 ^ p) = 10 ^ (p + 1)) := by
  have h1 : ((10 : ℕ) : ℚ) ^ Int.log 10 q ≤ q := Int.zpow_log_le_self (by norm_num) hq
  have h2 : q < ((10 : ℕ) : ℚ) ^ (Int.log 10 q + 1) := Int.lt_zpow_succ_log_self (by norm_num) q
  push_cast at h1 h2
  rw [zpow_add_one₀ (by norm_num)] at h2
  have hL : (0 : ℚ) < 10 ^ Int.log 10 q := zpow_pos (by norm_num) _
  have hP : (0 : ℚ) < 10 ^ p := by positivity
  unfold decimal
  rw [if_neg hq.ne']
  dsimp only
  generalize Int.log 10 q = L at *
  have ha : (10 : ℚ) ^ p ≤ q / 10 ^ L * 10 ^ p := by
    rw [le_mul_iff_one_le_left hP, le_div_iff₀ hL]; linarith
  have hb : q / 10 ^ L * 10 ^ p ≤ 10 ^ (p + 1) := by
    rw [pow_succ, mul_comm ((10 : ℚ) ^ p) 10]
    apply mul_le_mul_of_nonneg_right _ hP.le
    rw [div_le_iff₀ hL]; linarith
  have hr := roundEven_spec (q / 10 ^ L * 10 ^ p)
  have hra : (10 : ℤ) ^ p ≤ roundEven (q / 10 ^ L * 10 ^ p) := by
    have := roundEven_mono (x := ((10 ^ p : ℤ) : ℚ)) (by push_cast; exact ha)
    rwa [roundEven_intCast] at this
  have hrb : roundEven (q / 10 ^ L * 10 ^ p) ≤ (10 : ℤ) ^ (p + 1) := by
    have := roundEven_mono (y := ((10 ^ (p + 1) : ℤ) : ℚ)) (by push_cast; exact hb)
    rwa [roundEven_intCast] at this
  have herr : |q / 10 ^ L * 10 ^ p - (roundEven (q / 10 ^ L * 10 ^ p) : ℚ)| ≤ 1 / 2 := by
    rcases hr with hr | hr
    · exact hr.le
    · exact hr.1.le
  have hcast : ((roundEven (q / 10 ^ L * 10 ^ p)).toNat : ℤ) =
      roundEven (q / 10 ^ L * 10 ^ p) :=
    Int.toNat_of_nonneg (le_trans (by positivity) hra)
  generalize roundEven (q / 10 ^ L * 10 ^ p) = R at *
  have hval : |q - (R : ℚ) / 10 ^ p * 10 ^ L| ≤ 10 ^ L / 10 ^ p / 2 := by
    have hLn := hL.ne'
    have : q - (R : ℚ) / 10 ^ p * 10 ^ L = (q / 10 ^ L * 10 ^ p - R) * (10 ^ L / 10 ^ p) := by
      generalize (10 : ℚ) ^ L = X at *
      field_simp
    rw [this, abs_mul, abs_of_pos (div_pos hL hP)]
    have := mul_le_mul_of_nonneg_right herr (div_pos hL hP).le
    linarith
  have hRq : ((R.toNat : ℕ) : ℚ) = (R : ℚ) := by
    exact_mod_cast congrArg (Int.cast (R := ℚ)) hcast
  split
  · rename_i hc
    have hR : R = 10 ^ (p + 1) := by rw [← hcast, hc]; push_cast; rfl
    refine ⟨le_refl _, by rw [pow_succ]; have : 0 < 10 ^ p := by positivity
                          omega, ?_, .inr ⟨rfl, hR⟩⟩
    dsimp only
    convert hval using 3
    rw [hR, zpow_add_one₀ (by norm_num)]
    push_cast
    rw [pow_succ]
    field_simp
  · rename_i hc
    dsimp only
    refine ⟨by zify; rw [hcast]; exact hra, ?_, by rw [hRq]; exact hval, .inl rfl⟩
    have : R.toNat ≤ 10 ^ (p + 1) := by zify; rw [hcast]; exact hrb
    omega

/-- The number that `decimal` stands for. -/
def decimalValue (p : Nat) (q : ℚ) : ℚ := ((decimal p q).1 : ℚ) / 10 ^ p * 10 ^ (decimal p q).2

theorem decimalValue_eq (p : Nat) {q : ℚ} (hq : 0 < q) :
    decimalValue p q = roundEven (q / 10 ^ Int.log 10 q * 10 ^ p) / 10 ^ p * 10 ^ Int.log 10 q ∧
      10 ^ p ≤ roundEven (q / 10 ^ Int.log 10 q * 10 ^ p) ∧
      roundEven (q / 10 ^ Int.log 10 q * 10 ^ p) ≤ 10 ^ (p + 1) := by
  have h1 : ((10 : ℕ) : ℚ) ^ Int.log 10 q ≤ q := Int.zpow_log_le_self (by norm_num) hq
  have h2 : q < ((10 : ℕ) : ℚ) ^ (Int.log 10 q + 1) := Int.lt_zpow_succ_log_self (by norm_num) q
  push_cast at h1 h2
  rw [zpow_add_one₀ (by norm_num)] at h2
  have hL : (0 : ℚ) < 10 ^ Int.log 10 q := zpow_pos (by norm_num) _
  have hP : (0 : ℚ) < 10 ^ p := by positivity
  unfold decimalValue decimal
  rw [if_neg hq.ne']
  dsimp only
  generalize Int.log 10 q = L at *
  have ha : (10 : ℚ) ^ p ≤ q / 10 ^ L * 10 ^ p := by
    rw [le_mul_iff_one_le_left hP, le_div_iff₀ hL]; linarith
  have hb : q / 10 ^ L * 10 ^ p ≤ 10 ^ (p + 1) := by
    rw [pow_succ, mul_comm ((10 : ℚ) ^ p) 10]
    apply mul_le_mul_of_nonneg_right _ hP.le
    rw [div_le_iff₀ hL]; linarith
  have hra : (10 : ℤ) ^ p ≤ roundEven (q / 10 ^ L * 10 ^ p) := by
    have := roundEven_mono (x := ((10 ^ p : ℤ) : ℚ)) (by push_cast; exact ha)
    rwa [roundEven_intCast] at this
  have hrb : roundEven (q / 10 ^ L * 10 ^ p) ≤ (10 : ℤ) ^ (p + 1) := by
    have := roundEven_mono (y := ((10 ^ (p + 1) : ℤ) : ℚ)) (by push_cast; exact hb)
    rwa [roundEven_intCast] at this
  have hcast : ((roundEven (q / 10 ^ L * 10 ^ p)).toNat : ℤ) =
      roundEven (q / 10 ^ L * 10 ^ p) :=
    Int.toNat_of_nonneg (le_trans (by positivity) hra)
  generalize roundEven (q / 10 ^ L * 10 ^ p) = R at *
  have hRq : ((R.toNat : ℕ) : ℚ) = (R : ℚ) := by
    exact_mod_cast congrArg (Int.cast (R := ℚ)) hcast
  refine ⟨?_, hra, hrb⟩
  split
  · rename_i hc
    have hR : R = 10 ^ (p + 1) := by rw [← hcast, hc]; push_cast; rfl
    dsimp only
    rw [hR, zpow_add_one₀ (by norm_num)]
    push_cast
    rw [pow_succ]
    field_simp
  · dsimp only
    rw [hRq]

theorem decimalValue_zero (p : Nat) : decimalValue p 0 = 0 := by simp [decimalValue, decimal]

theorem decimalValue_nonneg (p : Nat) (q : ℚ) : 0 ≤ decimalValue p q := by
  unfold decimalValue
  have : (0 : ℚ) < 10 ^ (decimal p q).2 := zpow_pos (by norm_num) _
  positivity

theorem decimalValue_mono (p : Nat) {q q' : ℚ} (hq : 0 ≤ q) (h : q ≤ q') :
    decimalValue p q ≤ decimalValue p q' := by
  rcases hq.eq_or_lt with rfl | hq
  · rw [decimalValue_zero]; exact decimalValue_nonneg p q'
  have hq' := hq.trans_le h
  obtain ⟨e1, -, b1⟩ := decimalValue_eq p hq
  obtain ⟨e2, a2, -⟩ := decimalValue_eq p hq'
  rw [e1, e2]
  have hP : (0 : ℚ) < 10 ^ p := by positivity
  have hlog : Int.log 10 q ≤ Int.log 10 q' := Int.log_mono_right hq h
  rcases hlog.eq_or_lt with hl | hl
  · rw [hl]
    have hL : (0 : ℚ) < 10 ^ Int.log 10 q' := zpow_pos (by norm_num) _
    apply mul_le_mul_of_nonneg_right _ hL.le
    apply div_le_div_of_nonneg_right _ hP.le
    exact_mod_cast roundEven_mono
      (mul_le_mul_of_nonneg_right (div_le_div_of_nonneg_right h hL.le) hP.le)
  · have h1 : (roundEven (q / 10 ^ Int.log 10 q * 10 ^ p) : ℚ) / 10 ^ p ≤ 10 := by
      rw [div_le_iff₀ hP]
      have : (roundEven (q / 10 ^ Int.log 10 q * 10 ^ p) : ℚ) ≤ 10 ^ (p + 1) := by exact_mod_cast b1
      rw [pow_succ] at this; linarith
    have h2 : 1 ≤ (roundEven (q' / 10 ^ Int.log 10 q' * 10 ^ p) : ℚ) / 10 ^ p := by
      rw [le_div_iff₀ hP, one_mul]; exact_mod_cast a2
    have hL : (0 : ℚ) < 10 ^ Int.log 10 q := zpow_pos (by norm_num) _
    have hL' : (0 : ℚ) < 10 ^ Int.log 10 q' := zpow_pos (by norm_num) _
    calc _ ≤ 10 * (10 : ℚ) ^ Int.log 10 q := mul_le_mul_of_nonneg_right h1 hL.le
      _ = 10 ^ (Int.log 10 q + 1) := by rw [zpow_add_one₀ (by norm_num)]; ring
      _ ≤ 10 ^ Int.log 10 q' := zpow_le_zpow_right₀ (by norm_num) (by omega)
      _ ≤ _ := le_mul_of_one_le_left hL'.le h2

theorem pointed_spec {p d : Nat} (hd : d < 10 ^ (p + 1)) :
    ∃ c cs, pointed p d = c :: '.' :: cs ∧ (∀ x ∈ c :: cs, IsDigit x) ∧ cs.length = p ∧
      number (c :: cs) = d ∧ (10 ^ p ≤ d → c ≠ '0') ∧ (d = 0 → c = '0') := by
  have hl := natText_length_le (by omega) hd
  have hdig : ∀ x ∈ List.replicate (p + 1 - (natText d).length) '0' ++ natText d, IsDigit x := by
    intro x hx
    rw [List.mem_append, List.mem_replicate] at hx
    rcases hx with ⟨-, rfl⟩ | hx
    · simp [IsDigit]
    · exact natText_digits d x hx
  have hnum := number_zeros (p + 1 - (natText d).length) (natText d)
  have hlen : (List.replicate (p + 1 - (natText d).length) '0' ++ natText d).length = p + 1 := by
    simp; omega
  have hhead : 10 ^ p ≤ d →
      (List.replicate (p + 1 - (natText d).length) '0' ++ natText d).head? ≠ some '0' := by
    intro h
    have := lt_natText_length h
    rw [show p + 1 - (natText d).length = 0 by omega, List.replicate_zero, List.nil_append]
    have : 0 < 10 ^ p := by positivity
    exact natText_head (by omega)
  have hzero : d = 0 →
      (List.replicate (p + 1 - (natText d).length) '0' ++ natText d).head? = some '0' := by
    rintro rfl
    have e0 : natText 0 = ['0'] := rfl
    rw [e0]
    cases p with
    | zero => rfl
    | succ p => simp [List.replicate_succ]
  unfold pointed
  dsimp only
  generalize List.replicate (p + 1 - (natText d).length) '0' ++ natText d = t at *
  rcases t with _ | ⟨c, cs⟩
  · simp at hlen
  · refine ⟨c, cs, rfl, hdig, by simpa using hlen, by rw [hnum, number_natText], ?_, ?_⟩
    · intro h hc; exact hhead h (by simp [hc])
    · intro h; simpa using hzero h

theorem signedText_spec (z : Int) :
    ∃ t es, signedText z = t :: es ∧ (t = '+' ∨ t = '-') ∧ (∀ d ∈ es, IsDigit d) ∧
      2 ≤ es.length ∧ (2 < es.length → es.head? ≠ some '0') ∧
      z = (if t = '-' then -(number es : Int) else number es) ∧
      (|z| < 100 → es.length = 2) ∧ (100 ≤ |z| → |z| < 1000 → es.length = 3) := by
  refine ⟨_, _, rfl, by split <;> simp, ?_, by simp; omega, ?_, ?_, ?_, ?_⟩
  · intro x hx
    rw [List.mem_append, List.mem_replicate] at hx
    rcases hx with ⟨-, rfl⟩ | hx
    · simp [IsDigit]
    · exact natText_digits _ x hx
  · intro h
    rw [List.length_append, List.length_replicate] at h
    rw [show 2 - (natText z.natAbs).length = 0 by omega, List.replicate_zero, List.nil_append]
    apply natText_head
    intro h0
    rw [h0] at h
    have : (natText 0).length = 1 := rfl
    omega
  · rw [number_zeros, number_natText]
    by_cases hz : z < 0
    · rw [if_pos hz, if_pos rfl]; omega
    · rw [if_neg hz, if_neg (by decide)]; omega
  · intro h
    have : z.natAbs < 10 ^ 2 := by rw [Int.abs_eq_natAbs] at h; omega
    have := natText_length_le (by omega) this
    rw [List.length_append, List.length_replicate]; omega
  · intro h h'
    have h1 : z.natAbs < 10 ^ 3 := by rw [Int.abs_eq_natAbs] at h'; omega
    have h2 : 10 ^ 2 ≤ z.natAbs := by rw [Int.abs_eq_natAbs] at h; omega
    have := natText_length_le (by omega) h1
    have := lt_natText_length h2
    rw [List.length_append, List.length_replicate]; omega

theorem digits_no_e {cs : List Char} (h : ∀ c ∈ cs, IsDigit c) : 'e' ∉ cs := fun he =>
  (isDigit_ne (h _ he)).1 rfl

theorem intText_no_e (z : Int) : 'e' ∉ intText z := by
  unfold intText
  have := digits_no_e (natText_digits z.natAbs)
  split
  · simp [this]
  · exact this

/-- The text of a finite number, given that its exponent is an `i32`. -/
theorem formatNum_eq (a : Bin64) (w : Nat)
    (hd : (decimal (max w 8 - 7) |a.1|).1 < 10 ^ (max w 8 - 7 + 1))
    (he : -2 ^ 31 ≤ (decimal (max w 8 - 7) |a.1|).2 ∧ (decimal (max w 8 - 7) |a.1|).2 < 2 ^ 31) :
    formatNum (.fin a) w = .ok ((if 0 ≤ a.1 then ' ' else '-') ::
      pointed (max w 8 - 7) (decimal (max w 8 - 7) |a.1|).1 ++
        'e' :: signedText (decimal (max w 8 - 7) |a.1|).2) := by
  have hp : 'e' ∉ pointed (max w 8 - 7) (decimal (max w 8 - 7) |a.1|).1 := by
    obtain ⟨c, cs, h1, h2, -⟩ := pointed_spec hd
    have := digits_no_e h2
    rw [h1]
    simp only [List.mem_cons, not_or] at this ⊢
    exact ⟨this.1, by decide, this.2⟩
  unfold formatNum
  dsimp only
  unfold scientific
  rw [split_two hp (intText_no_e _)]
  simp only [List.getElem?_cons_zero, List.getElem?_cons_succ, Outcome.unwrap_some,
    Outcome.ok_bind, parseInt_intText he]

set_option exponentiation.threshold 2000

/-- A nonzero double is at least `2^-1074` in absolute value. -/
theorem min_abs {a : Bin64} (h : a.1 ≠ 0) : (2 : ℚ) ^ (-1074 : ℤ) ≤ |a.1| := by
  have hr := a.2.1
  unfold rnd0 at hr
  have hx : (2 : ℚ) ^ (-1074 : ℤ) ≤ 2 ^ expo a.1 :=
    zpow_le_zpow_right₀ (by norm_num) (le_max_right _ _)
  have hn : roundEven (a.1 / 2 ^ expo a.1) ≠ 0 := by
    intro h0
    rw [h0] at hr
    simp at hr
    exact h hr.symm
  rw [← hr, abs_mul, abs_of_pos (two_zpow_pos _)]
  have : (1 : ℚ) ≤ |((roundEven (a.1 / 2 ^ expo a.1) : ℤ) : ℚ)| := by
    exact_mod_cast Int.one_le_abs hn
  exact hx.trans (le_mul_of_one_le_left (two_zpow_pos _).le this)

theorem log_range {a : Bin64} (h : a.1 ≠ 0) :
    -324 ≤ Int.log 10 |a.1| ∧ Int.log 10 |a.1| ≤ 308 := by
  have h0 : 0 < |a.1| := abs_pos.2 h
  constructor
  · rw [← Int.zpow_le_iff_le_log (by norm_num) h0]
    refine le_trans ?_ (min_abs h)
    norm_num
  · have : Int.log 10 |a.1| < 309 := by
      rw [← Int.lt_zpow_iff_log_lt (by norm_num) h0]
      refine lt_trans a.2.2 ?_
      norm_num
    omega

end Cmaes.Format
