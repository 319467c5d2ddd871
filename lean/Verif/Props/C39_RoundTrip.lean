import Verif.Lemmas.RoundTrip
import Verif.Model.Parse

/-!
# Printing, then parsing (C39, C40)

`ufloat_fromstr` gives back the numbers printed by a format without LaTeX, percentage, thousands separator, or fill
character other than a space.
-/

set_option autoImplicit false

namespace Unc

/-- The formats that can be read back. -/
structure Readable (p : FmtParts) : Prop where
  comma : p.comma = []
  fill : p.fill = [] ∨ p.fill = [' ']
  percent : p.type ≠ ['%']
  latex : 'L' ∈ p.options → 'P' ∈ p.options

/-- **C39**: the string printed in the ± notation is parsed back to exactly the printed nominal value and
uncertainty. -/
theorem C39_round_trip (x s : ℚ) (hs : 0 < s) (spec out : Str) (p : FmtParts) (hp : parseSpec spec = some p) (hr : Readable p)
    (hS : 'S' ∉ p.options) (h : formatU (.fin x) (.fin s) spec = .ok out) :
    ∃ n u, Faithful x s out n u false ∧
      (ufloatFromstr out : PyRes (FNum × FNum)) = .ok (.fin n.value, .fin u.value) := by
  obtain ⟨p', hp', hv, l, S', E, t, hl, hpos, ht, hE, h308, hF⟩ := format_fin hs h
  obtain rfl : p = p' := by rw [hp] at hp'; injection hp'
  rw [if_neg hr.percent] at hF
  have hpe : '%' ∉ p.options := fun h => absurd (hv.options _ h) (by decide)
  have hL : printType p.options ≠ .latex := by
    unfold printType
    by_cases h1 : 'P' ∈ p.options
    · rw [if_pos h1]; decide
    · rw [if_neg h1, if_neg (fun h => h1 (hr.latex h))]; decide
  have hsc : scaleOf p = 1 := by unfold scaleOf; rw [if_neg hr.percent]
  rw [hsc, mul_one, mul_one] at hl hE
  rw [hsc, mul_one] at hF
  have hu : 0 < S' / (10 : ℚ) ^ E.getD 0 := div_pos hpos (ten_pos _)
  unfold formatNum at hF
  rw [if_neg hS] at hF
  refine ⟨shownOf x E l, shownOf S' E l, ⟨?_, ?_, S', ?_, shownOf_near _ _ _⟩,
    formatPm_parsed hv hr.comma hr.fill hu ht h308 hpe hL hF⟩
  · have := formatPm_displays hv hu.ne' ht (fun h => absurd h hpe) hF
    rw [decide_eq_false hpe] at this
    exact this
  · rw [show percentFactor false = 1 from rfl, mul_one]
    exact shownOf_near _ _ _
  · rw [show percentFactor false = 1 from rfl, mul_one]
    exact (hl.same hs).2

/-- **C40**: the same for the shorthand notation. -/
theorem C40_round_trip (x s : ℚ) (hs : 0 < s) (spec out : Str) (p : FmtParts) (hp : parseSpec spec = some p)
    (hr : Readable p) (hS : 'S' ∈ p.options) (h : formatU (.fin x) (.fin s) spec = .ok out) :
    ∃ n u, Faithful x s out n u false ∧
      (ufloatFromstr out : PyRes (FNum × FNum)) = .ok (.fin n.value, .fin u.value) := by
  obtain ⟨p', hp', hv, l, S', E, t, hl, hpos, ht, hE, h308, hF⟩ := format_fin hs h
  obtain rfl : p = p' := by rw [hp] at hp'; injection hp'
  rw [if_neg hr.percent] at hF
  have hpe : '%' ∉ p.options := fun h => absurd (hv.options _ h) (by decide)
  have hL : printType p.options ≠ .latex := by
    unfold printType
    by_cases h1 : 'P' ∈ p.options
    · rw [if_pos h1]; decide
    · rw [if_neg h1, if_neg (fun h => h1 (hr.latex h))]; decide
  have hsc : scaleOf p = 1 := by unfold scaleOf; rw [if_neg hr.percent]
  rw [hsc, mul_one, mul_one] at hl hE
  rw [hsc, mul_one] at hF
  have hu : 0 < S' / (10 : ℚ) ^ E.getD 0 := div_pos hpos (ten_pos _)
  unfold formatNum at hF
  rw [if_pos hS] at hF
  refine ⟨shownOf x E l, shownOf S' E l, ⟨?_, ?_, S', ?_, shownOf_near _ _ _⟩,
    formatShorthand_parsed hv hr.comma hr.fill hu ht h308 hpe hL hF⟩
  · have := formatShorthand_displays hv hu ht hF
    rw [decide_eq_false hpe] at this
    exact this
  · rw [show percentFactor false = 1 from rfl, mul_one]
    exact shownOf_near _ _ _
  · rw [show percentFactor false = 1 from rfl, mul_one]
    exact (hl.same hs).2

/-- With more than 308 digits after the decimal point, the parser could not read the number of units between the
parentheses (`OverflowError` in `10.**num_digits_after_period`), but the same exception is already raised when printing. -/
example : formatU (.fin (1 / 10 ^ 310)) (.fin (1 / 10 ^ 311)) "fS".toList = .error .overflowError ∧
    (ufloatFromstr ("0.".toList ++ List.replicate 309 '0' ++ "100(10)".toList) : PyRes (FNum × FNum)) = .error .overflowError :=
  ⟨by decide +kernel, by decide +kernel⟩
/-- An explicit uncertainty with many digits can be read back. -/
example : formatU (.fin 7) (.fin (3 / 2)) ".310fS".toList =
    .ok ("7.".toList ++ List.replicate 310 '0' ++ "(1.5".toList ++ List.replicate 309 '0' ++ ")".toList) ∧
    (ufloatFromstr ("7.".toList ++ List.replicate 310 '0' ++ "(1.5".toList ++ List.replicate 309 '0' ++ ")".toList) : PyRes (FNum × FNum)) =
      .ok (.fin 7, .fin (3 / 2)) := ⟨by decide +kernel, by decide +kernel⟩

/-- The hypotheses are met, for instance with a width, a sign, the pretty-print mode and an exponent. -/
example : formatU (.fin (314159 * 10 ^ 5)) (.fin (10 ^ 7)) "+15eP".toList = .ok "   +3.1416×10¹⁰±    0.0010×10¹⁰".toList := by
  decide +kernel
example : ∃ p, parseSpec "+15eP".toList = some p ∧ Readable p ∧ 'S' ∉ p.options :=
  ⟨⟨[], [], ['+'], [], "15".toList, [], none, [], ['e'], ['P']⟩, by decide +kernel, ⟨rfl, .inl rfl, by decide, by decide⟩, by decide⟩
example : (ufloatFromstr "   +3.1416×10¹⁰±    0.0010×10¹⁰".toList : PyRes (FNum × FNum)) = .ok (.fin (31416 * 10 ^ 6), .fin (10 ^ 7)) := by
  decide +kernel
example : formatU (.fin (123456 / 1000)) (.fin (2345 / 100)) "020.1fSp".toList = .ok "000000000123.5(23.4)".toList := by decide +kernel
example : (ufloatFromstr "000000000123.5(23.4)".toList : PyRes (FNum × FNum)) = .ok (.fin (1235 / 10), .fin (234 / 10)) := by
  decide +kernel
/-- Uncertainty rounded to zero. -/
example : formatU (.fin (123456 / 1000)) (.fin (1 / 100)) ".0fS".toList = .ok "123(0.)".toList := by decide +kernel
example : (ufloatFromstr "123(0.)".toList : PyRes (FNum × FNum)) = .ok (.fin 123, .fin 0) := by decide +kernel

end Unc
