import Verif.Lemmas.Layout
import Verif.Lemmas.FormatSpecial

/-!
# Layout of printed numbers: width, alignment, sign, padding, separators, options (C64)

The vocabulary is in `Spec/Layout.lean`.
-/

set_option autoImplicit false

namespace Unc

/-- **C64**, ± notation: for finite values and a non-zero uncertainty, the string has the requested layout (and the
numbers in it are the rounded values, as in C41). -/
theorem C64_layout_pm_partial (x s : ℚ) (hs : 0 < s) (spec out : Str) (p : FmtParts) (hp : parseSpec spec = some p)
    (hS : 'S' ∉ p.options) (h : formatU (.fin x) (.fin s) spec = .ok out) :
    ∃ n u, Faithful x s out n u (decide (p.type = ['%'])) ∧ PmLayout p x n u out := by
  obtain ⟨p', hp', hv, l, S', E, hl, hpos, hE, hf⟩ := format_fin_type hs h
  obtain rfl : p = p' := by rw [hp] at hp'; injection hp'
  have hsc := scaleOf_pos p
  have hu : 0 < S' / (10 : ℚ) ^ E.getD 0 := div_pos hpos (ten_pos _)
  have hpe : '%' ∈ optionsOf p → E = none := by
    intro h
    have h' := (percent_mem hv).1 h
    rw [hE]
    unfold commonExponent presOf
    rw [if_pos h', if_pos (.inl rfl)]
  have hS' : 'S' ∉ optionsOf p := fun h => hS ((mem_optionsOf p (by decide)).1 h)
  unfold formatNum at hf
  rw [if_neg hS'] at hf
  have hL := formatPm_layout hv hu hpe hf
  have hD := formatPm_displays hv hu.ne' (mainType_f p) hpe hf
  refine ⟨shownOf (x * scaleOf p) E l, shownOf S' E l, ⟨?_, ?_, S', ?_, shownOf_near _ _ _⟩, ?_⟩
  · rw [← decide_eq_decide.2 (percent_mem hv)]
    exact hD
  · rw [scaleOf_factor]; exact shownOf_near _ _ _
  · rw [scaleOf_factor]; exact (hl.same (mul_pos hs hsc)).2
  · obtain ⟨N, U, e, h1, h2, h3, h4, h5⟩ := hL
    refine ⟨N, U, e, h1, h2, ?_, h4, h5⟩
    have hsg : signText (x * scaleOf p / (10 : ℚ) ^ E.getD 0) p.sign = signText x p.sign := by
      rw [div_eq_mul_inv, mul_assoc, signText_scale (mul_pos hsc (inv_pos.2 (ten_pos _)))]
    rw [hsg] at h3
    exact h3

/-- **C64**, shorthand notation. -/
theorem C64_layout_shorthand_partial (x s : ℚ) (hs : 0 < s) (spec out : Str) (p : FmtParts) (hp : parseSpec spec = some p)
    (hS : 'S' ∈ p.options) (h : formatU (.fin x) (.fin s) spec = .ok out) :
    ∃ n u, Faithful x s out n u (decide (p.type = ['%'])) ∧ ShorthandLayout p x n u out := by
  obtain ⟨p', hp', hv, l, S', E, hl, hpos, hE, hf⟩ := format_fin_type hs h
  obtain rfl : p = p' := by rw [hp] at hp'; injection hp'
  have hsc := scaleOf_pos p
  have hu : 0 < S' / (10 : ℚ) ^ E.getD 0 := div_pos hpos (ten_pos _)
  have hS' : 'S' ∈ optionsOf p := (mem_optionsOf p (by decide)).2 hS
  unfold formatNum at hf
  rw [if_pos hS'] at hf
  have hL := formatShorthand_layout hv hu hf
  have hD := formatShorthand_displays hv hu (mainType_f p) hf
  refine ⟨shownOf (x * scaleOf p) E l, shownOf S' E l, ⟨?_, ?_, S', ?_, shownOf_near _ _ _⟩, ?_⟩
  · rw [← decide_eq_decide.2 (percent_mem hv)]
    exact hD
  · rw [scaleOf_factor]; exact shownOf_near _ _ _
  · rw [scaleOf_factor]; exact (hl.same (mul_pos hs hsc)).2
  · obtain ⟨N, U, e, tail, h1, h2, h2', h3, h5⟩ := hL
    refine ⟨N, U, e, tail, h1, h2, h2', ?_, h5⟩
    have hsg : signText (x * scaleOf p / (10 : ℚ) ^ E.getD 0) p.sign = signText x p.sign := by
      rw [div_eq_mul_inv, mul_assoc, signText_scale (mul_pos hsc (inv_pos.2 (ten_pos _)))]
    rw [hsg] at h3
    exact h3

/-- Width with exponent, `*` as fill character, centered; both numbers are 12 characters wide. -/
example : formatU (.fin 123456) (.fin 789) "*^12.1ue".toList = .ok "*1.235e+05**+/-*0.008e+05**".toList := by decide +kernel
/-- Zero padding, sign and separators. -/
example : formatU (.fin 1234567) (.fin 12) "+015,f".toList = .ok "+00,001,234,567+/-000,000,000,012".toList := by decide +kernel
example : formatU (.fin (-1234567)) (.fin 12) "<12S".toList = .ok "-1234567(12)".toList := by decide +kernel
example : formatU (.fin (-1234)) (.fin 12) "#<12S".toList = .ok "-1234(12)###".toList := by decide +kernel
/-- LaTeX, with parentheses. -/
example : formatU (.fin 1234) (.fin 12) "Lp".toList = .ok "\\left(1234 \\pm 12\\right)".toList := by decide +kernel
/-- Pretty-print with a factored exponent and upper case (not used by the pretty-print style). -/
example : formatU (.fin 1234) (.fin 12) "EP".toList = .ok "(1.234±0.012)×10³".toList := by decide +kernel
example : formatU (.fin 1234) (.fin 12) "E".toList = .ok "(1.234+/-0.012)E+03".toList := by decide +kernel

/-- **C64**, for all values (zero, infinite and NaN ones included): in the ± notation with a width, each of the two parts has
at least this width. -/
theorem C64_width_pm (x s : FNum) (spec out : Str) (p : FmtParts) (hp : parseSpec spec = some p) (hS : 'S' ∉ p.options)
    (hw : p.width ≠ []) (h : formatU x s spec = .ok out) :
    ∃ A B, digitsVal p.width ≤ A.length ∧ digitsVal p.width ≤ B.length ∧
      out = parenthesized (styleOf p.options) (p.type = ['%'] || 'p' ∈ p.options) (A ++ (styleOf p.options).pm ++ B) ++
        percentText p := by
  obtain ⟨p', plan, hp', hv, hplan, hf⟩ := format_ok h
  obtain rfl : p = p' := by rw [hp] at hp'; injection hp'
  have ho : plan.options = optionsOf p := by
    obtain ⟨_, _, _, _, h⟩ := formatPlan_ok hplan
    exact h.2.2.2.2.2.2
  have hS' : 'S' ∉ optionsOf p := fun h => hS ((mem_optionsOf p (by decide)).1 h)
  unfold formatNum at hf
  rw [ho, if_neg hS'] at hf
  obtain ⟨z, z', Ns, Es, A, B, -, -, -, -, hA, hB, rfl⟩ := formatPm_ok hv hf
  have key : ∀ {s A : Str}, Padded p s A → digitsVal p.width ≤ A.length := by
    intro s A hA
    rcases hA with ⟨hw', -⟩ | ⟨-, hA⟩
    · exact absurd hw' hw
    · obtain ⟨i, j, -, hl, -⟩ := robustAlign_field hA hv.align
      rw [hl]
      exact le_max_left _ _
  refine ⟨A, B, key hA, key hB, ?_⟩
  exact wrapPm_width hv hw _ _ _ _

/-- **C64**, for all values: in the shorthand notation, the string has at least the requested width. -/
theorem C64_width_shorthand (x s : FNum) (spec out : Str) (p : FmtParts) (hp : parseSpec spec = some p) (hS : 'S' ∈ p.options)
    (hw : p.width ≠ []) (h : formatU x s spec = .ok out) : digitsVal p.width ≤ out.length := by
  obtain ⟨p', plan, hp', hv, hplan, hf⟩ := format_ok h
  obtain rfl : p = p' := by rw [hp] at hp'; injection hp'
  have ho : plan.options = optionsOf p := by
    obtain ⟨_, _, _, _, h⟩ := formatPlan_ok hplan
    exact h.2.2.2.2.2.2
  unfold formatNum at hf
  rw [ho, if_pos ((mem_optionsOf p (by decide)).2 hS)] at hf
  obtain ⟨z, Ns, U, -, -, -, -, hA⟩ := formatShorthand_ok hv hf
  rcases hA with ⟨hw', -⟩ | ⟨-, hA⟩
  · exact absurd hw' hw
  · obtain ⟨i, j, -, hl, -⟩ := robustAlign_field hA hv.align
    rw [hl]
    exact le_max_left _ _

example : formatU .nan (.fin 12) "10".toList = .ok "       nan+/-      12.0".toList := by decide +kernel
example : formatU (.fin 12) (.inf false) "^10L".toList = .ok "   12.0    \\pm   \\infty  ".toList := by decide +kernel

/-- **C64** is false for the alignment `=`, which is accepted in format specifications: with a width, no string is ever
produced. -/
theorem C64_fails_equals (x s : FNum) (spec : Str) (p : FmtParts) (hp : parseSpec spec = some p) (ha : p.align = ['='])
    (hw : p.width ≠ []) (out : Str) : formatU x s spec ≠ .ok out := by
  intro h
  obtain ⟨p', plan, hp', hv, hplan, hf⟩ := format_ok h
  obtain rfl : p = p' := by rw [hp] at hp'; injection hp'
  have no : ∀ t A : Str, ¬ Padded p t A := by
    intro t A hA
    rcases hA with ⟨h', -⟩ | ⟨-, hA⟩
    · exact hw h'
    · unfold robustAlign effectiveAlign at hA
      rw [ha] at hA
      cases hA
  unfold formatNum at hf
  by_cases hS : 'S' ∈ plan.options
  · rw [if_pos hS] at hf
    obtain ⟨z, Ns, U, -, -, -, -, hA⟩ := formatShorthand_ok hv hf
    exact no _ _ hA
  · rw [if_neg hS] at hf
    obtain ⟨z, z', Ns, Es, A, B, -, -, -, -, hA, -⟩ := formatPm_ok hv hf
    exact no _ _ hA

example : parseSpec "=10".toList = some ⟨[], ['='], [], [], "10".toList, [], none, [], [], []⟩ ∧
    formatU (.fin 12) (.fin 1) "=10".toList = .error .valueError := by decide +kernel

end Unc
