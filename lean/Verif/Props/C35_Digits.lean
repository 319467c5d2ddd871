import Verif.Lemmas.Decimal

/-!
# Digits displayed (C35, C36, C37)

Statements about `first_digit`, `signif_dgt_to_limit` and `PDG_precision` with exact arithmetic, in the vocabulary of
`Spec/Decimal.lean`.
-/

set_option autoImplicit false

namespace Unc

/-- **C35**: the decimal exponent attributed to a value is the only integer `d` with `10**d <= |v| < 10**(d+1)`, and 0
for zero. -/
theorem C35_first_digit (v : ℚ) :
    (v ≠ 0 → ∀ d : ℤ, firstDigit v = d ↔ (10 : ℚ) ^ d ≤ |v| ∧ |v| < (10 : ℚ) ^ (d + 1)) ∧
      (v = 0 → firstDigit v = 0) := by
  refine ⟨fun h d => ⟨?_, fun h => firstDigit_eq h⟩, ?_⟩
  · rintro rfl
    exact firstDigit_spec h
  · rintro rfl
    rfl

example : firstDigit (-(9996 / 10)) = 2 := by decide +kernel
example : firstDigit (1 / 1000) = -3 := by decide +kernel

/-- **C35**: it is the integer part of the (real) decimal logarithm, as in the code. -/
theorem C35_first_digit_log (v : ℚ) (h : v ≠ 0) : firstDigit v = ⌊Real.logb 10 |(v : ℝ)|⌋ := by
  have h0 : (0 : ℝ) < |(v : ℝ)| := abs_pos.2 (by exact_mod_cast h)
  obtain ⟨h1, h2⟩ := firstDigit_spec h
  symm
  rw [Int.floor_eq_iff]
  have h1' : (10 : ℝ) ^ (firstDigit v) ≤ |(v : ℝ)| := by
    have : (((10 : ℚ) ^ (firstDigit v) : ℚ) : ℝ) ≤ ((|v| : ℚ) : ℝ) := Rat.cast_le.2 h1
    push_cast at this
    exact this
  have h2' : |(v : ℝ)| < (10 : ℝ) ^ (firstDigit v + 1) := by
    have : ((|v| : ℚ) : ℝ) < (((10 : ℚ) ^ (firstDigit v + 1) : ℚ) : ℝ) := Rat.cast_lt.2 h2
    push_cast at this
    exact this
  constructor
  · rw [Real.le_logb_iff_rpow_le (by norm_num) h0]
    exact_mod_cast h1'
  · rw [Real.logb_lt_iff_lt_rpow (by norm_num) h0]
    exact_mod_cast h2'

/-- **C36**: rounding a non-zero value at the limit computed for `n >= 1` significant digits gives `m * 10**limit` for
an integer `m` with exactly `n` digits, which is nearest to the value. -/
theorem C36_significant_digits (v : ℚ) (h : v ≠ 0) (n : ℕ) (hn : 1 ≤ n) :
    ∃ m : ℤ, pyRound v (-signifDgtToLimit v n) = m * (10 : ℚ) ^ signifDgtToLimit v n ∧
      HasDigits m n ∧ Rounds v (signifDgtToLimit v n) m := by
  refine ⟨rhe (v / (10 : ℚ) ^ signifDgtToLimit v n), pyRound_mul _ _, ?_, pyRound_rounds _ _⟩
  have hp := signif_pos (abs_pos.2 h) hn
  rw [signif_abs, show |v| / (10 : ℚ) ^ signifDgtToLimit v n = |v / (10 : ℚ) ^ signifDgtToLimit v n| by
    rw [abs_div, abs_of_pos (ten_pos _)], rhe_abs, Int.abs_eq_natAbs] at hp
  exact ⟨by exact_mod_cast hp.1, by exact_mod_cast hp.2⟩

/-- The carry: 9.96 with two digits is displayed as 10. -/
example : signifDgtToLimit (996 / 100) 2 = 0 ∧ pyRound (996 / 100) 0 = 10 := by decide +kernel
example : signifDgtToLimit (996 / 100) 3 = -2 := by decide +kernel
example : signifDgtToLimit (12345) 2 = 3 ∧ pyRound 12345 (-3) = 12000 := by decide +kernel

/-- **C37**: the three leading digits `t` of the uncertainty decide: 100-354 gives two significant digits, 355-949 one,
and 950-999 gives two digits of the uncertainty rounded up to `1000` in the units of the third digit. -/
theorem C37_pdg_rule (v : ℚ) (t : ℕ) (d : ℤ) (h : LeadingDigits v t d) :
    (t ≤ 354 → pdgPrecision v = (2, v)) ∧
      (355 ≤ t → t ≤ 949 → pdgPrecision v = (1, v)) ∧
      (950 ≤ t → pdgPrecision v = (2, 1000 * (10 : ℚ) ^ (d - 2))) := by
  rw [pdg_eq h]
  refine ⟨fun h => by rw [if_pos h], fun h h' => by rw [if_neg (by omega), if_pos h'], fun h' => ?_⟩
  rw [if_neg (by omega), if_neg (by omega), show (1000 : ℚ) = (10 : ℚ) ^ (3 : ℤ) by norm_num, ← ten_add]
  congr 2
  ring

/-- **C37**: every positive value has three leading digits, and only one such triple. -/
theorem C37_leading_digits (v : ℚ) (h : 0 < v) : ∃! td : ℕ × ℤ, LeadingDigits v td.1 td.2 := by
  obtain ⟨t, d, htd⟩ := exists_leading h
  refine ⟨(t, d), htd, ?_⟩
  rintro ⟨t', d'⟩ h'
  obtain rfl : d' = d := h'.exponent.1.unique htd.exponent.1
  have hp := ten_pos (d' - 2)
  have a1 : (t' : ℚ) < t + 1 := lt_of_mul_lt_mul_right (h'.2.2.1.trans_lt htd.2.2.2) hp.le
  have a2 : (t : ℚ) < t' + 1 := lt_of_mul_lt_mul_right (htd.2.2.1.trans_lt h'.2.2.2) hp.le
  have b1 : t' < t + 1 := by exact_mod_cast a1
  have b2 : t < t' + 1 := by exact_mod_cast a2
  have : t' = t := by omega
  simp [this]

/-- **C37**, scale invariance: multiplying the uncertainty by a power of ten does not change the number of digits, and
multiplies the displayed value by the same power of ten. -/
theorem C37_scale_invariance (v : ℚ) (h : 0 < v) (k : ℤ) :
    pdgPrecision (v * (10 : ℚ) ^ k) = ((pdgPrecision v).1, (pdgPrecision v).2 * (10 : ℚ) ^ k) := by
  obtain ⟨t, d, htd⟩ := exists_leading h
  rw [pdg_eq htd, pdg_eq (htd.scale k)]
  split_ifs
  · rfl
  · rfl
  · rw [← ten_add, show d + 1 + k = d + k + 1 by ring]

/-- **C37**: what is displayed without explicit precision. With `t` the three leading digits, the displayed
uncertainty is an integer multiple `m` of the unit of the last displayed digit: `m` has two digits when `t <= 354`,
one digit when `355 <= t <= 949`, and is 10 (ten units of the first digit) when `950 <= t`. -/
theorem C37_pdg_displayed (v : ℚ) (t : ℕ) (d : ℤ) (h : LeadingDigits v t d) :
    ∃ (l m : ℤ), signifDgtToLimit (pdgPrecision v).2 (pdgPrecision v).1 = l ∧
      pyRound (pdgPrecision v).2 (-l) = m * (10 : ℚ) ^ l ∧
      (t ≤ 354 → HasDigits m 2) ∧ (355 ≤ t → t ≤ 949 → HasDigits m 1) ∧
      (950 ≤ t → m = 10 ∧ l = d) := by
  obtain ⟨he, hv⟩ := h.exponent
  rw [pdg_eq h]
  by_cases h1 : t ≤ 354
  · rw [if_pos h1]
    obtain ⟨m, hm, hd, -⟩ := C36_significant_digits v hv.ne' 2 (by norm_num)
    exact ⟨_, m, rfl, hm, fun _ => hd, by omega, by omega⟩
  · rw [if_neg h1]
    by_cases h2 : t ≤ 949
    · rw [if_pos h2]
      obtain ⟨m, hm, hd, -⟩ := C36_significant_digits v hv.ne' 1 (by norm_num)
      exact ⟨_, m, rfl, hm, by omega, fun _ _ => hd, by omega⟩
    · rw [if_neg h2]
      have hl : firstDigit ((10 : ℚ) ^ (d + 1)) = d + 1 := firstDigit_eq (by
        rw [HasExponent, abs_of_pos (ten_pos _)]
        exact ⟨le_rfl, ten_lt_iff.2 (by omega)⟩)
      have hr : pyRound ((10 : ℚ) ^ (d + 1)) (-d) = (10 : ℚ) ^ (d + 1) := by
        rw [pyRound_mul, show (10 : ℚ) ^ (d + 1) / (10 : ℚ) ^ d = ((10 : ℤ) : ℚ) by
          rw [ten_add]; field_simp; norm_num, rhe_int, ten_add]
        push_cast; ring
      have hlim : signifDgtToLimit ((10 : ℚ) ^ (d + 1)) ((2 : ℕ) : ℤ) = d := by
        unfold signifDgtToLimit
        simp only [hl]
        rw [show -(d + 1 - ((2 : ℕ) : ℤ) + 1) = -d by push_cast; ring, hr, hl, if_neg (lt_irrefl _)]
        push_cast; ring
      refine ⟨d, 10, hlim, ?_, by omega, by omega, fun _ => ⟨rfl, rfl⟩⟩
      simp only []
      rw [hr, ten_add]; push_cast; ring

example : LeadingDigits (3549 / 10000) 354 (-1) := by
  refine ⟨by norm_num, by norm_num, ?_, ?_⟩ <;> norm_num
example : pdgPrecision (3549 / 10000) = (2, 3549 / 10000) := by decide +kernel
example : pdgPrecision (355 / 1000) = (1, 355 / 1000) := by decide +kernel
example : pdgPrecision (9496 / 10) = (1, 9496 / 10) := by decide +kernel
example : pdgPrecision (950 / 10) = (2, 100) := by decide +kernel

end Unc
