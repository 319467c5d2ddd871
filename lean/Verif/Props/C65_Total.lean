import Verif.Lemmas.Total

/-!
# Formatting always gives a string (C65)
-/

set_option autoImplicit false

namespace Unc

/-- Zero, or an absolute value between `10**-n` and `10**n`; infinities and NaN are allowed. -/
def Ordinary (n : ℤ) : FNum → Prop
  | .fin q => q = 0 ∨ (10 : ℚ) ^ (-n) ≤ |q| ∧ |q| ≤ (10 : ℚ) ^ n
  | _ => True

theorem Ordinary.moderate {n : ℤ} {x : FNum} (h : Ordinary n x) : x.Moderate n := by
  cases x with
  | fin q =>
    rcases h with rfl | h
    · exact .inl abs_zero
    · exact .inr h
  | _ => trivial

/-- **C65.** Formatting never fails when the specification is valid, for values of ordinary magnitude, infinities and NaN
(the nominal value and the standard deviation being independent of each other, the latter being non-negative), except when
one of the following is requested: an alignment `=` in a field; zero digits on the uncertainty; a precision for the types
`g`, `G` or for no type, when the nominal value or the uncertainty is infinite or NaN, or when the uncertainty is zero; the
shorthand notation for very small or large numbers or with a very large precision (it fails when there are more than 308
digits after the decimal point). -/
theorem C65_total_partial (x s : FNum) (hx : Ordinary 300 x) (hs : Ordinary 300 s) (hpos : ∀ q, s = .fin q → 0 ≤ q)
    (spec : Str) (p : FmtParts) (hp : parseSpec spec = some p)
    (hal : p.align = ['='] → p.width = [])
    (hu : ∀ d, p.uncertPrec ≠ [] → p.prec = some d → digitsVal d ≠ 0)
    (hg : p.prec ≠ none → p.type = [] ∨ p.type = ['g'] ∨ p.type = ['G'] → ∃ a b, x = .fin a ∧ s = .fin b ∧ b ≠ 0)
    (hS : 'S' ∈ p.options → Ordinary 100 x ∧ Ordinary 100 s ∧ ∀ d, p.prec = some d → digitsVal d ≤ 100) :
    ∃ out, formatU x s spec = .ok out := by
  have hv := (parseSpec_sound hp).1
  obtain ⟨plan, hplan⟩ := formatPlan_total hv (fun h d hd => hu d h hd) hx.moderate hs.moderate hpos
  have hg' : p.prec = none ∨ isGType p.type = false ∨ specialError plan.errorMain = false ∧ plan.nomMain.isInfinite = false := by
    by_cases h1 : p.prec = none
    · exact .inl h1
    · by_cases h2 : isGType p.type = true
      · obtain ⟨a, b, rfl, rfl, hb⟩ := hg h1 (by simpa [isGType, or_assoc] using h2)
        have hb' : 0 < b := lt_of_le_of_ne (hpos b rfl) (Ne.symm hb)
        obtain ⟨l, S', -, hS, -, -, hn, he, -⟩ := formatPlan_fin hv hb' hplan
        refine .inr (.inr ⟨?_, ?_⟩)
        · rw [he]
          have : S' / (10 : ℚ) ^ plan.commonExp.getD 0 ≠ 0 := (div_pos hS (ten_pos _)).ne'
          simp [specialError, FNum.truthy, FNum.isInfinite, this]
        · rw [hn]; rfl
      · exact .inr (.inl (by simpa using h2))
  obtain ⟨_, _, _, _, -, -, -, -, -, hmt, hop⟩ := formatPlan_ok hplan
  unfold formatU
  rw [hp]
  simp only [hplan]
  show ∃ out, formatNum plan.nomMain plan.errorMain plan.commonExp p plan.prec plan.mainPresType plan.options = .ok out
  unfold formatNum
  split_ifs with hSo
  · have hSp : 'S' ∈ p.options := by
      rw [hop] at hSo
      split_ifs at hSo
      · simpa using hSo
      · exact hSo
    obtain ⟨h1, h2, h3⟩ := hS hSp
    exact formatShorthand_total hv hal hmt hg' _ _ _ (formatPlan_prec h1.moderate h2.moderate hpos h3 hplan)
  · exact formatPm_total hv hal hmt hg' _ _ _

/-- The hypotheses are met by a number with an infinite uncertainty, and by a percentage. -/
example : ∃ out, formatU (.fin (3 / 2)) (.inf false) "+010.2eS".toList = .ok out :=
  C65_total_partial (.fin (3 / 2)) (.inf false) (by right; decide +kernel) trivial (fun _ h => by cases h) _ _ (by decide +kernel : _ = some
    { fill := [], align := [], sign := ['+'], zero := ['0'], width := "10".toList, comma := [], prec := some ['2'],
      uncertPrec := [], type := ['e'], options := ['S'] }) (fun h => absurd h (by decide)) (fun _ h => absurd rfl h)
    (fun _ h => absurd h (by decide))
    (fun _ => ⟨by right; decide +kernel, trivial, fun d hd => by obtain rfl := Option.some.inj hd; decide +kernel⟩)

/-- **C65 fails in the shorthand notation** with more than 308 digits after the decimal point: `10.**prec` overflows.  This
happens with a large precision, and for numbers with a very small relative uncertainty shown with an exponent, for instance 1e200±1e-200. -/
theorem C65_fails_shorthand :
    formatU (.fin 1) (.fin (1 / 10)) ".309fS".toList = .error .overflowError ∧
      formatU (.fin (10 ^ 200)) (.fin (1 / 10 ^ 200)) "eS".toList = .error .overflowError ∧
      ∃ out, formatU (.fin (10 ^ 200)) (.fin (1 / 10 ^ 200)) "e".toList = .ok out :=
  ⟨by decide +kernel, by decide +kernel, "(1.".toList ++ List.replicate 401 '0' ++ "+/-0.".toList ++ List.replicate 399 '0' ++
    "10)e+200".toList, by decide +kernel⟩

/-- **C65 fails for subnormal numbers.** The exponent of the smallest float cannot be factored. -/
theorem C65_fails_tiny : formatU (.fin 0) (.fin (5 * (10 : ℚ) ^ (-324 : ℤ))) [] = .error .zeroDivisionError := by decide +kernel

/-- A specification that is not valid always gives a `ValueError`. -/
theorem C65_invalid (x s : FNum) (spec : Str) (hp : parseSpec spec = none) : formatU x s spec = .error .valueError := by
  unfold formatU
  rw [hp]
  rfl

/-- The exceptions are real ones: `=` in a field (see also `C64_fails_equals`), zero digits on the uncertainty (see also
`C63_zero_digits`), and a precision with a zero uncertainty. -/
theorem C65_fails_options :
    formatU (.fin 1) (.fin 1) "=10".toList = .error .valueError ∧ formatU (.fin 1) (.fin 1) ".0u".toList = .error .valueError ∧
      formatU (.fin 1) (.fin 0) ",.3".toList = .error .valueError := by decide +kernel

/-- The hypothesis of `C65_invalid`. -/
example : parseSpec "1.2.3".toList = none := by decide +kernel

end Unc
