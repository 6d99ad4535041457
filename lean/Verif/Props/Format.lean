import Verif.Lemmas.Format

/-!
# Printed numbers

C63 — every finite number prints as a number in scientific notation, with the right sign, the
right digits and a fixed width.
-/

namespace Cmaes

open Printed Format

/-- A printed text is read in one way only. -/
theorem c63_unique {p p' : Nat} {text : List Char} {v v' : ℚ} {e e' : Int}
    (h : Reads p text v e) (h' : Reads p' text v' e') : p = p' ∧ v = v' ∧ e = e' := by
  obtain ⟨s, c, cs, t, es, h1, -, h3, h4, -, -, -, -, h9, h10⟩ := h.shape
  obtain ⟨s', c', cs', t', es', g1, -, g3, g4, -, -, -, -, g9, g10⟩ := h'.shape
  rw [h1] at g1
  simp only [List.cons_append, List.cons.injEq, true_and] at g1
  obtain ⟨rfl, rfl, g1⟩ := g1
  have he : 'e' ∉ cs := digits_no_e fun x hx => h3 x (by simp [hx])
  have he' : 'e' ∉ cs' := digits_no_e fun x hx => g3 x (by simp [hx])
  have hs := congrArg (fun l => l.takeWhile (· != 'e')) g1
  have tw : ∀ (l r : List Char), 'e' ∉ l → (l ++ 'e' :: r).takeWhile (· != 'e') = l := by
    intro l r hl
    rw [List.takeWhile_append_of_pos]
    · simp
    · intro x hx
      simp only [bne_iff_ne, ne_eq]
      rintro rfl
      exact hl hx
  simp only [tw _ _ he, tw _ _ he'] at hs
  subst hs
  rw [List.append_cancel_left_eq] at g1
  simp only [List.cons.injEq, true_and] at g1
  obtain ⟨rfl, rfl⟩ := g1
  have hp : p = p' := h4.symm.trans g4
  subst hp
  have hee : e = e' := h9.trans g9.symm
  subst hee
  exact ⟨rfl, h10.trans g10.symm, rfl⟩

theorem format_core (a : Bin64) (width : Nat) :
    ∃ text v e, formatNum (.fin a) width = .ok text ∧
      Reads (max width 8 - 7) text v e ∧
      |v - a.1| ≤ |a.1| / 10 ^ (max width 8 - 7) / 2 ∧
      |v - a.1| ≤ 10 ^ e / 10 ^ (max width 8 - 7) / 2 ∧
      (text[0]? = some '-' ↔ a.1 < 0) ∧
      (text[1]? = some '0' ↔ a.1 = 0) ∧
      text.length = max width 8 + (if |e| < 100 then 0 else 1) ∧
      e = (decimal (max width 8 - 7) |a.1|).2 ∧
      v = (if a.1 < 0 then -1 else 1) * decimalValue (max width 8 - 7) |a.1| := by
  set p := max width 8 - 7 with hp
  have hp1 : p + 7 = max width 8 := by omega
  by_cases h0 : a.1 = 0
  · have hdec : decimal p |a.1| = (0, 0) := by simp [decimal, h0]
    have heq := formatNum_eq a width (by rw [← hp, hdec]; positivity)
      (by rw [← hp, hdec]; norm_num)
    rw [← hp, hdec, if_pos h0.ge] at heq
    obtain ⟨c, cs, q1, q2, q3, q4, -, q6⟩ := pointed_spec (p := p) (d := 0) (by positivity)
    obtain ⟨t, es, s1, s2, s3, s4, s5, s6, s7, -⟩ := signedText_spec 0
    refine ⟨_, 0, 0, heq, ⟨' ', c, cs, t, es, ?_, .inl rfl, q2, q3, s2, s3, s4, s5, s6, ?_⟩,
      by simp [h0], ?_, ?_, ?_, ?_, by rw [hdec],
      by simp [h0, decimalValue_zero]⟩
    · rw [q1, s1]
    · rw [q4]; simp
    · rw [h0]; simp only [sub_self, abs_zero]; positivity
    · simp [h0]
    · rw [q1]
      simp [q6, h0]
    · have := s7 (by norm_num)
      rw [q1, s1, if_pos (by norm_num), ← hp1]
      simp only [List.cons_append, List.length_cons, List.length_append, q3, this]
  · have hq : 0 < |a.1| := abs_pos.2 h0
    obtain ⟨d1, d2, d3, d4⟩ := decimal_spec p hq
    obtain ⟨l1, l2⟩ := log_range h0
    have hle : Int.log 10 |a.1| ≤ (decimal p |a.1|).2 ∧
        (decimal p |a.1|).2 ≤ Int.log 10 |a.1| + 1 := by
      rcases d4 with d4 | ⟨d4, -⟩ <;> constructor <;> omega
    have hlog : (10 : ℚ) ^ Int.log 10 |a.1| ≤ |a.1| := by
      exact_mod_cast Int.zpow_log_le_self (b := 10) (by norm_num) hq
    have heq := formatNum_eq a width d2 (by rw [← hp]; constructor <;> omega)
    rw [← hp] at heq
    unfold decimalValue
    generalize hD : (decimal p |a.1|).1 = D at *
    generalize hE : (decimal p |a.1|).2 = E at *
    obtain ⟨c, cs, q1, q2, q3, q4, q5, -⟩ := pointed_spec d2
    obtain ⟨t, es, s1, s2, s3, s4, s5, s6, s7, s8⟩ := signedText_spec E
    have herr : |(if a.1 < 0 then -1 else 1) * (D : ℚ) / 10 ^ p * 10 ^ E - a.1| ≤
        10 ^ Int.log 10 |a.1| / 10 ^ p / 2 := by
      refine le_trans (le_of_eq ?_) d3
      by_cases hn : a.1 < 0
      · rw [if_pos hn, abs_of_neg hn]
        congr 1; ring
      · rw [if_neg hn, abs_of_nonneg (not_lt.1 hn), abs_sub_comm, one_mul]
    have hP : (0 : ℚ) < 10 ^ p := by positivity
    refine ⟨_, (if a.1 < 0 then -1 else 1) * (D : ℚ) / 10 ^ p * 10 ^ E, E, heq,
      ⟨if 0 ≤ a.1 then ' ' else '-', c, cs, t, es, ?_, ?_, q2, q3, s2, s3, s4, s5, s6, ?_⟩,
      ?_, ?_, ?_, ?_, ?_, rfl, by ring⟩
    · rw [q1, s1]
    · split <;> simp
    · rw [q4]
      by_cases hn : a.1 < 0
      · rw [if_pos hn, if_neg (not_le.2 hn), if_pos rfl]
      · rw [if_neg hn, if_pos (not_lt.1 hn), if_neg (by decide)]
    · refine le_trans herr ?_
      gcongr
    · refine le_trans herr ?_
      gcongr
      · norm_num
      · exact hle.1
    · by_cases hn : a.1 < 0
      · simp [hn, not_le.2 hn]
      · simp [hn, not_lt.1 hn]
    · rw [q1]
      simp only [List.cons_append, List.getElem?_cons_succ, List.getElem?_cons_zero,
        Option.some.injEq]
      exact iff_of_false (q5 d1) h0
    · rw [q1, s1, ← hp1]
      simp only [List.cons_append, List.length_cons, List.length_append, q3]
      split
      · rw [s7 (by assumption)]
      · rename_i hE2
        have : |E| < 1000 := by rw [abs_lt]; constructor <;> omega
        rw [s8 (by omega) this]

/-- **C63.** `format_num` of a finite number never panics. Its text is a number in scientific
notation with `p = max(width, 8) - 7` decimals. The number it denotes differs from the argument by
at most half a unit of its last decimal, so by at most `|x| / (2 * 10^p)`. The sign column is a
minus exactly for negative numbers. The first digit is `0` exactly for zero. The text has
`max(width, 8)` characters if the printed exponent has two digits and one more otherwise. -/
theorem c63_format (a : Bin64) (width : Nat) :
    ∃ text v e, formatNum (.fin a) width = .ok text ∧
      Reads (max width 8 - 7) text v e ∧
      |v - a.1| ≤ |a.1| / 10 ^ (max width 8 - 7) / 2 ∧
      |v - a.1| ≤ 10 ^ e / 10 ^ (max width 8 - 7) / 2 ∧
      (text[0]? = some '-' ↔ a.1 < 0) ∧
      (text[1]? = some '0' ↔ a.1 = 0) ∧
      text.length = max width 8 + (if |e| < 100 then 0 else 1) := by
  obtain ⟨text, v, e, h1, h2, h3, h4, h5, h6, h7, -⟩ := format_core a width
  exact ⟨text, v, e, h1, h2, h3, h4, h5, h6, h7⟩

/-- Numbers up to `9.9 * 10^e` do not round up to `10^(e+1)`. -/
theorem carry_lt {p : Nat} {q : ℚ} {e : Int} (hp : 1 ≤ p) (hl : Int.log 10 q = e)
    (h : q ≤ 99 / 10 * 10 ^ e)
    (hc : roundEven (q / 10 ^ Int.log 10 q * 10 ^ p) = 10 ^ (p + 1)) : False := by
  have hE : (0 : ℚ) < 10 ^ e := zpow_pos (by norm_num) _
  obtain ⟨p, rfl⟩ : ∃ k, p = k + 1 := ⟨p - 1, by omega⟩
  have h1 : q / 10 ^ Int.log 10 q * 10 ^ (p + 1) ≤ ((99 * 10 ^ p : ℤ) : ℚ) := by
    rw [hl]
    have : q / 10 ^ e ≤ 99 / 10 := by rwa [div_le_iff₀ hE]
    have := mul_le_mul_of_nonneg_right this (show (0 : ℚ) ≤ 10 ^ (p + 1) by positivity)
    refine this.trans (le_of_eq ?_)
    push_cast
    rw [pow_succ]; ring
  have h2 := roundEven_mono h1
  rw [hc, roundEven_intCast, pow_succ, pow_succ] at h2
  have : (0 : ℤ) < 10 ^ p := by positivity
  omega

/-- **C63, widths.** The text has exactly `max(width, 8)` characters for zero and for every number
between `10^-99` and `9.9 * 10^99` in absolute value. It has one more for numbers of at least
`10^100` and for nonzero numbers of at most `9.9 * 10^-100`. (Between these limits the width depends
on whether rounding carries into the next power of ten.) -/
theorem c63_width (a : Bin64) (width : Nat) :
    ∃ text, formatNum (.fin a) width = .ok text ∧
      (a.1 = 0 ∨ 10 ^ (-99 : ℤ) ≤ |a.1| ∧ |a.1| ≤ 99 / 10 * 10 ^ 99 →
        text.length = max width 8) ∧
      (10 ^ 100 ≤ |a.1| ∨ a.1 ≠ 0 ∧ |a.1| ≤ 99 / 10 * 10 ^ (-100 : ℤ) →
        text.length = max width 8 + 1) := by
  set p := max width 8 - 7 with hp
  obtain ⟨text, v, e, h1, -, -, -, -, -, h7, h8, -⟩ := format_core a width
  rw [← hp] at h8
  refine ⟨text, h1, ?_, ?_⟩
  · intro h
    rw [h7, if_pos, add_zero]
    by_cases h0 : a.1 = 0
    · rw [h8, h0]; simp [decimal]
    · obtain ⟨ha, hb⟩ := h.resolve_left h0
      have hq : 0 < |a.1| := abs_pos.2 h0
      have hl1 : -99 ≤ Int.log 10 |a.1| := by
        rw [← Int.zpow_le_iff_le_log (by norm_num) hq, Nat.cast_ofNat]
        exact ha
      have hl2 : Int.log 10 |a.1| < 100 := by
        rw [← Int.lt_zpow_iff_log_lt (by norm_num) hq]
        refine lt_of_le_of_lt hb ?_
        norm_num
      obtain ⟨-, -, -, d4⟩ := decimal_spec p hq
      have : e ≠ 100 := by
        intro he
        rw [h8] at he
        rcases d4 with d4 | ⟨d4, d5⟩
        · omega
        · exact carry_lt (e := 99) (by omega) (by omega) (by rw [zpow_ofNat]; exact hb) d5
      rw [abs_lt]
      rcases d4 with d4 | ⟨d4, -⟩ <;> constructor <;> omega
  · intro h
    rw [h7, if_neg]
    rw [not_lt, le_abs]
    rcases h with h | ⟨h0, h⟩
    · have hq : 0 < |a.1| := lt_of_lt_of_le (by positivity) h
      have hl : 100 ≤ Int.log 10 |a.1| := by
        rw [← Int.zpow_le_iff_le_log (by norm_num) hq, zpow_ofNat, Nat.cast_ofNat]
        exact h
      obtain ⟨-, -, -, d4⟩ := decimal_spec p hq
      rcases d4 with d4 | ⟨d4, -⟩ <;> omega
    · have hq : 0 < |a.1| := abs_pos.2 h0
      have hl : Int.log 10 |a.1| < -99 := by
        rw [← Int.lt_zpow_iff_log_lt (by norm_num) hq]
        refine lt_of_le_of_lt h ?_
        norm_num
      obtain ⟨-, -, -, d4⟩ := decimal_spec p hq
      rcases d4 with d4 | ⟨d4, d5⟩
      · omega
      · by_cases hl' : Int.log 10 |a.1| = -100
        · exact (carry_lt (by omega) hl' h d5).elim
        · omega

/-- **C63, order.** Printing respects the order: of two numbers printed with the same width, the
smaller one's text never denotes the larger number. -/
theorem c63_monotone {a b : Bin64} (h : a.1 ≤ b.1) (width : Nat) :
    ∃ s t v v' e e', formatNum (.fin a) width = .ok s ∧ formatNum (.fin b) width = .ok t ∧
      Reads (max width 8 - 7) s v e ∧ Reads (max width 8 - 7) t v' e' ∧ v ≤ v' := by
  obtain ⟨s, v, e, h1, h2, -, -, -, -, -, -, hv⟩ := format_core a width
  obtain ⟨t, v', e', g1, g2, -, -, -, -, -, -, hv'⟩ := format_core b width
  refine ⟨s, t, v, v', e, e', h1, g1, h2, g2, ?_⟩
  rw [hv, hv']
  by_cases ha : a.1 < 0
  · by_cases hb : b.1 < 0
    · rw [if_pos ha, if_pos hb, abs_of_neg ha, abs_of_neg hb]
      have := decimalValue_mono (max width 8 - 7) (q := -b.1) (q' := -a.1) (by linarith)
        (by linarith)
      linarith
    · rw [if_pos ha, if_neg hb]
      have := decimalValue_nonneg (max width 8 - 7) |a.1|
      have := decimalValue_nonneg (max width 8 - 7) |b.1|
      linarith
  · have ha' := not_lt.1 ha
    have hb' := ha'.trans h
    rw [if_neg ha, if_neg (not_lt.2 hb'), abs_of_nonneg ha', abs_of_nonneg hb']
    have := decimalValue_mono (max width 8 - 7) ha' h
    linarith

/-- **C63, other numbers.** NaN and the infinities print as their names, right-aligned. -/
theorem c63_names (width : Nat) :
    (∃ k, formatNum .nan width = .ok (List.replicate k ' ' ++ "NaN".toList) ∧
      k + 3 = max width 3) ∧
    (∃ k, formatNum .pinf width = .ok (List.replicate k ' ' ++ "inf".toList) ∧
      k + 3 = max width 3) ∧
    (∃ k, formatNum .ninf width = .ok (List.replicate k ' ' ++ "-inf".toList) ∧
      k + 4 = max width 4) :=
  ⟨⟨_, rfl, by simp; omega⟩, ⟨_, rfl, by simp; omega⟩, ⟨_, rfl, by simp; omega⟩⟩

/-! ## Cases

The repository's own expectations, and numbers beyond them. -/

/-- Whether a number prints as the given text. -/
def printsAs (x : F64) (width : Nat) (s : String) : Bool :=
  match formatNum x width with
  | .ok t => t == s.toList
  | _ => false

example : printsAs (Bin64.rnd (1234567891235 / 10 ^ 14)) 8 " 1.2e-02" = true := by decide +kernel
example : printsAs (Bin64.rnd (-1234567891235 / 10 ^ 14)) 8 "-1.2e-02" = true := by decide +kernel
example : printsAs (Bin64.rnd (123456 / 10 ^ 7)) 16 " 1.234560000e-02" = true := by decide +kernel
example : printsAs (Bin64.rnd (-12345678906 / 100)) 16 "-1.234567891e+08" = true := by
  decide +kernel
example : printsAs (Bin64.rnd 0) 12 " 0.00000e+00" = true := by decide +kernel
example : printsAs .nan 12 "         NaN" = true := by decide +kernel
example : printsAs .ninf 12 "        -inf" = true := by decide +kernel

/-- A number of more than `10^100` takes one more column. -/
example : printsAs (Bin64.rnd (10 ^ 150)) 8 " 1.0e+150" = true := by decide +kernel

/-- Rounding carries into the next power of ten. -/
example : printsAs (Bin64.rnd (999 / 10)) 8 " 1.0e+02" = true := by decide +kernel

/-- The smallest positive double. -/
example : printsAs (Bin64.rnd (1 / 2 ^ 1074)) 8 " 4.9e-324" = true := by decide +kernel

end Cmaes
