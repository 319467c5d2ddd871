import Verif.Lemmas.Reprint
import Verif.Props.C39_RoundTrip

/-!
# C79: printing, parsing and printing again
-/

set_option autoImplicit false

namespace Unc

/-- **C79**: the printed numbers are printed in the same way: rounding is done once and for all.  Exceptions: an uncertainty
printed as zero, a negative nominal value printed as zero, and an uncertainty printed as 95, 950, 9500... in a format `f`, `F`
or `%` without precision. -/
theorem C79_print_again_partial (x s : ℚ) (hs : 0 < s) (spec out : Str) (h : formatU (.fin x) (.fin s) spec = .ok out) :
    ∃ p n u, parseSpec spec = some p ∧ Faithful x s out n u (decide (p.type = ['%'])) ∧
      (u.value ≠ 0 → (n.value = 0 → 0 ≤ x) →
        (p.prec = none → p.type ∈ [['f'], ['F'], ['%']] → ∀ k : ℕ, u.value ≠ 95 * 10 ^ k) →
        formatU (.fin (n.value / percentFactor (p.type = ['%']))) (.fin (u.value / percentFactor (p.type = ['%']))) spec = .ok out) := by
  obtain ⟨p, n, u, hp, hv, hF, h⟩ := reprint hs h
  refine ⟨p, n, u, hp, hF, fun h1 h2 h3 => ?_⟩
  rw [scaleOf_factor]
  refine h h1 h2 fun hd hf => h3 hd ?_
  rcases type_f hv hf with h | h | h <;> rw [h] <;> simp

/-- **C79**: a number with uncertainty that was printed and parsed is printed again as the same string (with the exceptions of
`C79_print_again_partial`). -/
theorem C79_print_parse_print_partial (x s : ℚ) (hs : 0 < s) (spec out : Str) (p : FmtParts) (hp : parseSpec spec = some p)
    (hr : Readable p) (h : formatU (.fin x) (.fin s) spec = .ok out) :
    ∃ x' s' : ℚ, (ufloatFromstr out : PyRes (FNum × FNum)) = .ok (.fin x', .fin s') ∧
      (s' ≠ 0 → (x' = 0 → 0 ≤ x) → (p.prec = none → p.type ∈ [['f'], ['F']] → ∀ k : ℕ, s' ≠ 95 * 10 ^ k) →
        formatU (.fin x') (.fin s') spec = .ok out) := by
  obtain ⟨p', hp', hv, l, S', E, t, hl, hpos, ht, hE, h308, hF⟩ := format_fin hs h
  obtain rfl : p = p' := by rw [hp] at hp'; injection hp'
  have hsc : scaleOf p = 1 := by unfold scaleOf; rw [if_neg hr.percent]
  have hpe : '%' ∉ p.options := fun h => absurd (hv.options _ h) (by decide)
  have hL : printType p.options ≠ .latex := by
    unfold printType
    by_cases h1 : 'P' ∈ p.options
    · rw [if_pos h1]; decide
    · rw [if_neg h1, if_neg (fun h => h1 (hr.latex h))]; decide
  have hu : 0 < S' / (10 : ℚ) ^ E.getD 0 := div_pos hpos (ten_pos _)
  rw [if_neg hr.percent] at hF
  have hparsed : (ufloatFromstr out : PyRes (FNum × FNum)) =
      .ok (.fin (shownOf (x * scaleOf p) E l).value, .fin (shownOf S' E l).value) := by
    unfold formatNum at hF
    split_ifs at hF
    · exact formatShorthand_parsed hv hr.comma hr.fill hu ht h308 hpe hL hF
    · exact formatPm_parsed hv hr.comma hr.fill hu ht h308 hpe hL hF
  refine ⟨_, _, hparsed, fun h1 h2 h3 => ?_⟩
  have := reprint_of hs hp hl hE.symm h1 h2 (fun hd hf => h3 hd (by
    rcases type_f hv hf with h | h | h
    · rw [h]; simp
    · rw [h]; simp
    · exact absurd h hr.percent))
  rw [hsc, div_one, div_one] at this
  rw [hsc, this, h]

/-- The first exception: `1.00±0.00` is read as an exact number. -/
theorem C79_zero_uncertainty :
    formatU (.fin 1) (.fin (1 / 1000)) ".2f".toList = .ok "1.00+/-0.00".toList ∧
    formatU (.fin 1) (.fin 0) ".2f".toList = .ok "1.00+/-0".toList := ⟨by decide +kernel, by decide +kernel⟩

/-- The last exception: 94.6 has one significant digit according to the Particle Data Group, but 95 is then printed, which is
rounded to 100 when it is printed again. -/
theorem C79_fixed_point_not_stable :
    formatU (.fin 1234) (.fin (946 / 10)) "f".toList = .ok "1234+/-95".toList ∧
    (ufloatFromstr "1234+/-95".toList : PyRes (FNum × FNum)) = .ok (.fin 1234, .fin 95) ∧
    formatU (.fin 1234) (.fin 95) "f".toList = .ok "1234+/-100".toList :=
  ⟨by decide +kernel, by decide +kernel, by decide +kernel⟩

/-- The hypotheses are met. -/
example : formatU (.fin (314159 / 100000)) (.fin (996 / 10000)) "+.1ueP".toList = .ok "(+3.1±0.1)×10⁰".toList ∧
    (ufloatFromstr "(+3.1±0.1)×10⁰".toList : PyRes (FNum × FNum)) = .ok (.fin (31 / 10), .fin (1 / 10)) ∧
    formatU (.fin (31 / 10)) (.fin (1 / 10)) "+.1ueP".toList = .ok "(+3.1±0.1)×10⁰".toList :=
  ⟨by decide +kernel, by decide +kernel, by decide +kernel⟩
example : ∃ p, parseSpec "+.1ueP".toList = some p ∧ Readable p :=
  ⟨⟨[], [], ['+'], [], [], [], some "1".toList, ['u'], ['e'], ['P']⟩, by decide +kernel, ⟨rfl, .inl rfl, by decide, by decide⟩⟩
/-- A percentage. -/
example : formatU (.fin (12345 / 100000)) (.fin (5 / 1000)) "%".toList = .ok "(12.3+/-0.5)%".toList ∧
    formatU (.fin (123 / 10 / 100)) (.fin (5 / 10 / 100)) "%".toList = .ok "(12.3+/-0.5)%".toList :=
  ⟨by decide +kernel, by decide +kernel⟩

end Unc
