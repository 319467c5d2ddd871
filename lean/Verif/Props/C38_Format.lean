import Verif.Lemmas.FormatPlan

/-!
# Formatting of finite values with a non-zero uncertainty (C38, C41, C42, C62, C63)

The vocabulary is in `Spec/Printed.lean` (how a printed string is read) and `Spec/FormatSpec.lean` (format
specifications).
-/

set_option autoImplicit false

namespace Unc

/-- **C62**: a documented format specification is read as its parts. -/
theorem C62_specification_read (p : FmtParts) (hv : p.Valid) (hf : p.fill = [] ∨ p.align ≠ []) : parseSpec p.text = some p := by
  rcases hf with hf | hf
  · exact parseSpec_no_fill hv hf
  · exact parseSpec_fill hv hf

/-- **C62**: nothing else is accepted, except a fill character without alignment and a newline at the end. -/
theorem C62_specification_accepted (spec : Str) (p : FmtParts) (h : parseSpec spec = some p) :
    p.Valid ∧ (spec = p.text ∨ spec = p.text ++ ['\n']) := parseSpec_sound h

/-- **C62**: a specification that is not accepted raises `ValueError`. -/
theorem C62_specification_refused (x s : FNum) (spec : Str)
    (h : ¬ ∃ p : FmtParts, p.Valid ∧ (spec = p.text ∨ spec = p.text ++ ['\n'])) :
    formatU x s spec = .error .valueError := by
  unfold formatU
  cases hp : parseSpec spec with
  | none => rfl
  | some p => exact absurd ⟨p, parseSpec_sound hp⟩ h

example : parseSpec "*^+020,.3ueLS".toList =
    some ⟨['*'], ['^'], ['+'], ['0'], "20".toList, [','], some ['3'], ['u'], ['e'], "LS".toList⟩ := by decide +kernel
example : formatU (.fin 1) (.fin 1) "10z".toList = .error .valueError := by decide +kernel

/-- **C38**: nominal value and uncertainty are printed with the same number of digits after the decimal point and the
same exponent. -/
theorem C38_same_decimals (x s : ℚ) (hs : 0 < s) (spec out : Str) (h : formatU (.fin x) (.fin s) spec = .ok out) :
    ∃ n u percent, Faithful x s out n u percent ∧ n.places = u.places ∧ n.exp = u.exp := by
  obtain ⟨p, -, -, l, S', E, -, -, -, hd⟩ := format_displays hs h
  exact ⟨_, _, _, hd, rfl, rfl⟩

example : formatU (.fin (314159 / 100000)) (.fin (1 / 100)) "".toList = .ok "3.142+/-0.010".toList := by decide +kernel
example : formatU (.fin (314159 / 100000)) (.fin (1 / 100)) "020,.3ueL".toList =
    .ok "3.1416 \\times 10^{0} \\pm 0.0100 \\times 10^{0}".toList := by decide +kernel
example : formatU (.fin (314159 / 100000)) (.fin (1 / 100)) "fS".toList = .ok "3.142(10)".toList := by decide +kernel

/-- **C41**: the printed nominal value is within half a unit of its last printed digit of the nominal value; the printed
uncertainty is within half a unit of its last printed digit of the uncertainty, or of the power of ten to which the rules
of the Particle Data Group round it up. -/
theorem C41_half_unit (x s : ℚ) (hs : 0 < s) (spec out : Str) (h : formatU (.fin x) (.fin s) spec = .ok out) :
    ∃ n u percent s', Displays out n u percent ∧ |x * percentFactor percent - n.value| ≤ n.unit / 2 ∧
      |s' - u.value| ≤ u.unit / 2 ∧ SameOrPdg (s * percentFactor percent) s' := by
  obtain ⟨p, -, -, l, S', E, -, -, -, hd⟩ := format_displays hs h
  obtain ⟨s', h1, h2⟩ := hd.uncertainty
  exact ⟨_, _, _, s', hd.displays, hd.nominal, h2, h1⟩

/-- The precision is not explicit, and the leading digits of 0.97 are in the range 950-999. -/
example : formatU (.fin 123) (.fin (97 / 100)) "f".toList = .ok "123.0+/-1.0".toList := by decide +kernel
example : formatU (.fin 12345) (.fin 970) "f".toList = .ok "12345+/-1000".toList := by decide +kernel

/-- **C42**, formats `e` and `E`: the common exponent is the one of the larger of the numbers shown, so that its
mantissa has one non-zero digit before the decimal point. -/
theorem C42_exponent_e (x s : ℚ) (hs : 0 < s) (spec out : Str) (p : FmtParts) (hp : parseSpec spec = some p)
    (ht : p.type = ['e'] ∨ p.type = ['E']) (h : formatU (.fin x) (.fin s) spec = .ok out) :
    ∃ n u e, Faithful x s out n u false ∧ n.exp = some e ∧ u.exp = some e ∧ HasExponent (max |n.value| u.value) e ∧
      1 ≤ max |n.mantissa| u.mantissa ∧ max |n.mantissa| u.mantissa < 10 := by
  obtain ⟨p', hp', hv, l, S', E, hl, hE, -, hd⟩ := format_displays hs h
  obtain rfl : p = p' := by rw [hp] at hp'; injection hp'
  have htp : p.type ≠ ['%'] := by rcases ht with h | h <;> rw [h] <;> decide
  have hpres : presOf p = some 'e' ∨ presOf p = some 'E' := by
    unfold presOf
    rw [if_neg htp]
    rcases ht with h | h <;> rw [h] <;> simp
  have hf : ¬ (presOf p = some 'f' ∨ presOf p = some 'F') := by
    rcases hpres with h | h <;> rw [h] <;> decide
  have hS : 0 < s * scaleOf p := by unfold scaleOf; rw [if_neg htp]; simpa using hs
  have hr := hl.ref_pos hS hf
  obtain ⟨h1, h2⟩ := exponent_cases hf hr
  rw [← hE] at h1 h2
  rw [if_pos (.inl hpres)] at h1
  have hm := shown_max hl hS h2
  have hx := (ref_exponent hr).1
  rw [decide_eq_false htp] at hd
  rw [← hm] at hx
  refine ⟨_, _, _, hd, h1, h1, hx, ?_⟩
  have hp0 := ten_pos (firstDigit (pyRound (max |x * scaleOf p| (s * scaleOf p)) (-l)))
  have hval : ∀ q, (shownOf q E l).value = (shownOf q E l).mantissa * (10 : ℚ) ^ firstDigit (pyRound (max |x * scaleOf p| (s * scaleOf p)) (-l)) := by
    intro q
    unfold Shown.value shownOf
    simp only [h1, Option.getD_some]
  rw [hval, hval, abs_mul, abs_of_pos hp0, ← max_mul_of_nonneg _ _ hp0.le] at hx
  have hnn : 0 ≤ max |(shownOf (x * scaleOf p) E l).mantissa| (shownOf S' E l).mantissa := le_max_of_le_left (abs_nonneg _)
  obtain ⟨a1, a2⟩ := hx
  rw [abs_of_nonneg (mul_nonneg hnn hp0.le)] at a1 a2
  rw [ten_add, zpow_one] at a2
  exact ⟨by nlinarith, by nlinarith⟩

/-- **C42**, formats `g`, `G` and no type: with `10**e` the decimal exponent of the larger of the numbers shown, and
`10**l` the last digit shown, an exponent is used if and only if `e < -4` or `l > 0`, and it is `e`. -/
theorem C42_exponent_g (x s : ℚ) (hs : 0 < s) (spec out : Str) (p : FmtParts) (hp : parseSpec spec = some p)
    (ht : p.type = [] ∨ p.type = ['g'] ∨ p.type = ['G']) (h : formatU (.fin x) (.fin s) spec = .ok out) :
    ∃ n u e, ∃ l : ℤ, Faithful x s out n u false ∧ HasExponent (max |n.value| u.value) e ∧
      n.unit = (10 : ℚ) ^ l ∧ u.unit = (10 : ℚ) ^ l ∧
      n.exp = (if e < -4 ∨ 0 < l then some e else none) ∧ u.exp = n.exp := by
  obtain ⟨p', hp', hv, l, S', E, hl, hE, -, hd⟩ := format_displays hs h
  obtain rfl : p = p' := by rw [hp] at hp'; injection hp'
  have htp : p.type ≠ ['%'] := by rcases ht with h | h | h <;> rw [h] <;> decide
  have hpres : ¬ (presOf p = some 'e' ∨ presOf p = some 'E') ∧ ¬ (presOf p = some 'f' ∨ presOf p = some 'F') := by
    unfold presOf
    rw [if_neg htp]
    rcases ht with h | h | h <;> rw [h] <;> simp
  have hS : 0 < s * scaleOf p := by unfold scaleOf; rw [if_neg htp]; simpa using hs
  have hr := hl.ref_pos hS hpres.2
  obtain ⟨h1, h2⟩ := exponent_cases hpres.2 hr
  rw [← hE] at h1 h2
  have hm := shown_max hl hS h2
  have hx := (ref_exponent hr).1
  rw [decide_eq_false htp] at hd
  rw [← hm] at hx
  refine ⟨_, _, _, l, hd, hx, shownOf_unit _ h2, shownOf_unit _ h2, ?_, rfl⟩
  show E = _
  rw [h1]
  simp only [hpres.1, false_or]

example : formatU (.fin 99900) (.fin 2000) "e".toList = .ok "(9.99+/-0.20)e+04".toList := by decide +kernel
/-- Rounding changes the exponent: 99960±900 is displayed as 1.000e5. -/
example : formatU (.fin 99960) (.fin 900) ".1ue".toList = .ok "(1.000+/-0.009)e+05".toList := by decide +kernel
example : formatU (.fin 99960) (.fin 900) ".1u".toList = .ok "(1.000+/-0.009)e+05".toList := by decide +kernel
example : formatU (.fin 99960) (.fin 9) ".1u".toList = .ok "99960+/-9".toList := by decide +kernel
example : formatU (.fin (1 / 10000)) (.fin (1 / 100000)) ".1u".toList = .ok "0.00010+/-0.00001".toList := by decide +kernel
example : formatU (.fin (1 / 100000)) (.fin (1 / 100000)) ".1u".toList = .ok "(1+/-1)e-05".toList := by decide +kernel

/-! ### C63: the requested precision -/

/-- **C63**, `.pf`, `.pF` and `.p%`: `p` digits after the decimal point. -/
theorem C63_decimals (x s : ℚ) (hs : 0 < s) (spec out : Str) (p : FmtParts) (hp : parseSpec spec = some p) (d : Str)
    (hd : p.prec = some d) (hu : p.uncertPrec = []) (ht : p.type = ['f'] ∨ p.type = ['F'] ∨ p.type = ['%'])
    (h : formatU (.fin x) (.fin s) spec = .ok out) :
    ∃ n u, Faithful x s out n u (decide (p.type = ['%'])) ∧ n.places = digitsVal d ∧ u.places = digitsVal d ∧
      n.exp = none ∧ u.exp = none := by
  obtain ⟨p', hp', hv, l, S', E, hl, hE, -, hF⟩ := format_displays hs h
  obtain rfl : p = p' := by rw [hp] at hp'; injection hp'
  have hf : presOf p = some 'f' ∨ presOf p = some 'F' := by
    rw [presOf_f]
    rcases ht with h | h | h <;> rw [h] <;> simp
  rw [commonExponent_f hf] at hE
  subst hE
  have hll : l = -(digitsVal d : ℤ) := by
    cases hl with
    | digits d' hd' hu' => exact absurd hu hu'
    | pdg hd' => rw [hd] at hd'; cases hd'
    | fixed d' hd' =>
      rw [hd] at hd'
      obtain rfl := Option.some.inj hd'
      rfl
    | float d' hd' hu' hf' => exact absurd hf hf'
  have hpl : ((none : Option ℤ).getD 0 - l).toNat = digitsVal d := by rw [hll]; simp
  exact ⟨_, _, hF, hpl, hpl, rfl, rfl⟩

/-- **C63**, `.pe` and `.pE`: `p` digits after the decimal point of the mantissas. -/
theorem C63_mantissa_decimals (x s : ℚ) (hs : 0 < s) (spec out : Str) (p : FmtParts) (hp : parseSpec spec = some p) (d : Str)
    (hd : p.prec = some d) (hu : p.uncertPrec = []) (ht : p.type = ['e'] ∨ p.type = ['E'])
    (h : formatU (.fin x) (.fin s) spec = .ok out) :
    ∃ n u, Faithful x s out n u false ∧ n.places = digitsVal d ∧ u.places = digitsVal d ∧ n.exp.isSome ∧ u.exp = n.exp := by
  obtain ⟨p', hp', hv, l, S', E, hl, hE, -, hF⟩ := format_displays hs h
  obtain rfl : p = p' := by rw [hp] at hp'; injection hp'
  have htp : p.type ≠ ['%'] := by rcases ht with h | h <;> rw [h] <;> decide
  have hpres : presOf p = some 'e' ∨ presOf p = some 'E' := by
    unfold presOf
    rw [if_neg htp]
    rcases ht with h | h <;> rw [h] <;> simp
  have hf : ¬ (presOf p = some 'f' ∨ presOf p = some 'F') := by
    rcases hpres with h | h <;> rw [h] <;> decide
  have hS : 0 < s * scaleOf p := mul_pos hs (scaleOf_pos p)
  have hr := hl.ref_pos hS hf
  have hE' := (exponent_cases hf hr).1
  rw [← hE, if_pos (.inl hpres)] at hE'
  have hll : l = signifDgtToLimit (max |x * scaleOf p| (s * scaleOf p)) ((digitsVal d + 1 : ℕ) : ℤ) := by
    cases hl with
    | digits d' hd' hu' => exact absurd hu hu'
    | pdg hd' => rw [hd] at hd'; cases hd'
    | fixed d' hd' hu' hf' => exact absurd hf' hf
    | float d' hd' hu' hf' n hn =>
      rw [hd] at hd'
      obtain rfl := Option.some.inj hd'
      rw [if_pos hpres] at hn
      rw [hn]
  have hdig : HasDigits (rhe (max |x * scaleOf p| (s * scaleOf p) / (10 : ℚ) ^ l)) (digitsVal d + 1) := by
    rw [hll]
    exact signif_hasDigits (lt_of_lt_of_le hS (le_max_right _ _)) (by omega)
  rw [places_of_digits hdig hr] at hE'
  have hpl : (E.getD 0 - l).toNat = digitsVal d := by rw [hE']; simp; omega
  rw [decide_eq_false htp] at hF
  exact ⟨_, _, hF, hpl, hpl, by show E.isSome = true; rw [hE']; rfl, rfl⟩

/-- **C63**, `.pg`, `.pG` and `.p`: the larger of the numbers shown has `p` significant digits (one if `p` is 0). -/
theorem C63_significant_digits (x s : ℚ) (hs : 0 < s) (spec out : Str) (p : FmtParts) (hp : parseSpec spec = some p) (d : Str)
    (hd : p.prec = some d) (hu : p.uncertPrec = []) (ht : p.type = [] ∨ p.type = ['g'] ∨ p.type = ['G'])
    (h : formatU (.fin x) (.fin s) spec = .ok out) :
    ∃ n u, Faithful x s out n u false ∧ n.unit = u.unit ∧ ∃ m : ℤ, max |n.value| u.value = m * n.unit ∧
      HasDigits m (if digitsVal d = 0 then 1 else digitsVal d) := by
  obtain ⟨p', hp', hv, l, S', E, hl, hE, -, hF⟩ := format_displays hs h
  obtain rfl : p = p' := by rw [hp] at hp'; injection hp'
  have htp : p.type ≠ ['%'] := by rcases ht with h | h | h <;> rw [h] <;> decide
  have hpres : ¬ (presOf p = some 'e' ∨ presOf p = some 'E') ∧ ¬ (presOf p = some 'f' ∨ presOf p = some 'F') := by
    unfold presOf
    rw [if_neg htp]
    rcases ht with h | h | h <;> rw [h] <;> simp
  have hS : 0 < s * scaleOf p := mul_pos hs (scaleOf_pos p)
  have hle := unit_of_limit hl hS hE (.inl hpres.2)
  have hmax := shown_max hl hS hle
  have hll : l = signifDgtToLimit (max |x * scaleOf p| (s * scaleOf p)) ((if digitsVal d = 0 then 1 else digitsVal d : ℕ) : ℤ) := by
    cases hl with
    | digits d' hd' hu' => exact absurd hu hu'
    | pdg hd' => rw [hd] at hd'; cases hd'
    | fixed d' hd' hu' hf' => exact absurd hf' hpres.2
    | float d' hd' hu' hf' n hn =>
      rw [hd] at hd'
      obtain rfl := Option.some.inj hd'
      rw [if_neg hpres.1] at hn
      rw [hn]
  rw [decide_eq_false htp] at hF
  refine ⟨_, _, hF, rfl, rhe (max |x * scaleOf p| (s * scaleOf p) / (10 : ℚ) ^ l), ?_, ?_⟩
  · rw [hmax, shownOf_unit _ hle]
  · rw [hll]
    exact signif_hasDigits (lt_of_lt_of_le hS (le_max_right _ _)) (by split_ifs <;> omega)

/-- **C63**, `.nu`: the uncertainty has `n` significant digits – unless the format is `f`, `F` or `%` and this would
mean hiding digits before the decimal point: they are all shown, so that there are at least `n` digits. -/
theorem C63_uncertainty_digits (x s : ℚ) (hs : 0 < s) (spec out : Str) (p : FmtParts) (hp : parseSpec spec = some p) (d : Str)
    (hd : p.prec = some d) (hu : p.uncertPrec ≠ []) (h : formatU (.fin x) (.fin s) spec = .ok out) :
    ∃ n u, Faithful x s out n u (decide (p.type = ['%'])) ∧ n.unit = u.unit ∧
      ((∃ m : ℤ, u.value = m * u.unit ∧ HasDigits m (digitsVal d)) ∨
        ((p.type = ['f'] ∨ p.type = ['F'] ∨ p.type = ['%']) ∧ n.unit = 1 ∧ (10 : ℚ) ^ (digitsVal d - 1) ≤ u.value)) := by
  obtain ⟨p', hp', hv, l, S', E, hl, hE, -, hF⟩ := format_displays hs h
  obtain rfl : p = p' := by rw [hp] at hp'; injection hp'
  have hS : 0 < s * scaleOf p := mul_pos hs (scaleOf_pos p)
  refine ⟨_, _, hF, rfl, ?_⟩
  have hll : l = signifDgtToLimit (s * scaleOf p) (digitsVal d) ∧ S' = s * scaleOf p ∧ 1 ≤ digitsVal d := by
    cases hl with
    | digits d' hd' hu' hpos =>
      rw [hd] at hd'
      obtain rfl := Option.some.inj hd'
      exact ⟨rfl, rfl, hpos⟩
    | pdg hd' => rw [hd] at hd'; cases hd'
    | fixed d' hd' hu' => exact absurd hu' hu
    | float d' hd' hu' => exact absurd hu' hu
  obtain ⟨hll, rfl, hpos⟩ := hll
  by_cases hle : l ≤ E.getD 0
  · left
    refine ⟨_, shownOf_units _ hle, ?_⟩
    rw [hll]
    exact signif_hasDigits hS hpos
  · right
    obtain ⟨h1, h2, h3⟩ := no_unit hl hS hE hle
    rw [h2] at hle h3 ⊢
    have hun : ∀ q, (shownOf q none l).unit = 1 := by
      intro q
      unfold Shown.unit shownOf
      simp only [h3]
      simp
    refine ⟨type_f hv h1, hun _, ?_⟩
    rw [shownOf_value, hun, div_one, mul_one]
    have h4 := (signif_pos hS hpos).1
    rw [← hll] at h4
    exact at_least (by simpa using hle) h4

/-- `.0u` is refused. -/
theorem C63_zero_digits (x s : ℚ) (hs : 0 < s) (spec : Str) (p : FmtParts) (hp : parseSpec spec = some p) (d : Str)
    (hd : p.prec = some d) (hu : p.uncertPrec ≠ []) (h0 : digitsVal d = 0) :
    formatU (.fin x) (.fin s) spec = .error .valueError := by
  have hv := (parseSpec_sound hp).1
  obtain ⟨hne, -⟩ := hv.prec d hd
  unfold formatU
  rw [hp]
  have hS : s * scaleOf p ≠ 0 := (mul_pos hs (scaleOf_pos p)).ne'
  have e1 : (if p.type = ['%'] then (FNum.fin x).scale 100 else FNum.fin x) = .fin (x * scaleOf p) := by
    unfold scaleOf; split_ifs <;> simp [FNum.scale]
  have e2 : (if p.type = ['%'] then (FNum.fin s).scale 100 else FNum.fin s) = .fin (s * scaleOf p) := by
    unfold scaleOf; split_ifs <;> simp [FNum.scale]
  have hlim : ∀ pres, digitsLimit p pres (.fin (x * scaleOf p)) (.fin (s * scaleOf p)) = .error .valueError := by
    intro pres
    unfold digitsLimit
    simp only [hd, Option.getD_some, hne, ne_eq, hu, not_false_eq_true, or_true, decide_true, if_pos hS, if_true, h0]
    rfl
  show (formatPlan p (.fin x) (.fin s)).bind _ = _
  unfold formatPlan
  simp only [e1, e2, hlim]
  rfl

/-- **C63**, no precision: the number of significant digits of the uncertainty is that of the rules of the Particle
Data Group, for the three leading digits `t` of the uncertainty – with the same exception for `f`, `F` and `%`. -/
theorem C63_default_digits (x s : ℚ) (hs : 0 < s) (spec out : Str) (p : FmtParts) (hp : parseSpec spec = some p)
    (hd : p.prec = none) (h : formatU (.fin x) (.fin s) spec = .ok out) :
    ∃ n u t d, Faithful x s out n u (decide (p.type = ['%'])) ∧ n.unit = u.unit ∧
      LeadingDigits (s * percentFactor (decide (p.type = ['%']))) t d ∧
      ((∃ m : ℤ, u.value = m * u.unit ∧ (t ≤ 354 → HasDigits m 2) ∧ (355 ≤ t → t ≤ 949 → HasDigits m 1) ∧
          (950 ≤ t → m = 10 ∧ u.unit = (10 : ℚ) ^ d)) ∨
        ((p.type = ['f'] ∨ p.type = ['F'] ∨ p.type = ['%']) ∧ n.unit = 1 ∧ 1 ≤ u.value)) := by
  obtain ⟨p', hp', hv, l, S', E, hl, hE, -, hF⟩ := format_displays hs h
  obtain rfl : p = p' := by rw [hp] at hp'; injection hp'
  have hS : 0 < s * scaleOf p := mul_pos hs (scaleOf_pos p)
  obtain ⟨t, k, hk⟩ := exists_leading hS
  refine ⟨_, _, t, k, hF, rfl, by rw [scaleOf_factor]; exact hk, ?_⟩
  have hll : l = signifDgtToLimit (pdgPrecision (s * scaleOf p)).2 (pdgPrecision (s * scaleOf p)).1 ∧
      S' = (pdgPrecision (s * scaleOf p)).2 := by
    cases hl with
    | digits d' hd' => rw [hd] at hd'; cases hd'
    | pdg => exact ⟨rfl, rfl⟩
    | fixed d' hd' => rw [hd] at hd'; cases hd'
    | float d' hd' => rw [hd] at hd'; cases hd'
  obtain ⟨hll, hS'⟩ := hll
  obtain ⟨l', m, hl', hm, c1, c2, c3⟩ := C37_pdg_displayed _ t k hk
  have hm' : m = rhe (S' / (10 : ℚ) ^ l) := by
    rw [hl'] at hll
    rw [hll, hS']
    rw [pyRound_mul] at hm
    have := mul_right_cancel₀ (ten_pos l').ne' hm
    exact_mod_cast this.symm
  by_cases hle : l ≤ E.getD 0
  · left
    refine ⟨m, ?_, c1, c2, fun h9 => ⟨(c3 h9).1, ?_⟩⟩
    · rw [shownOf_units _ hle, hm']
    · rw [shownOf_unit _ hle, hll, hl', (c3 h9).2]
  · right
    obtain ⟨h1, h2, h3⟩ := no_unit hl hS hE hle
    rw [h2] at hle h3 ⊢
    have hun : ∀ q, (shownOf q none l).unit = 1 := by
      intro q
      unfold Shown.unit shownOf
      simp only [h3]
      simp
    refine ⟨type_f hv h1, hun _, ?_⟩
    rw [shownOf_value, hun, div_one, mul_one]
    have h4 : (10 : ℤ) ^ 0 ≤ rhe (S' / (10 : ℚ) ^ l) := by
      rw [hll, hS', (pdg_round hS).1]
      exact (pdg_round hS).2
    simpa using at_least (by simpa using hle) h4

example : formatU (.fin (314159 / 100000)) (.fin (1 / 100)) ".4f".toList = .ok "3.1416+/-0.0100".toList := by decide +kernel
example : formatU (.fin (314159 / 1000)) (.fin (1 / 100)) ".2e".toList = .ok "(3.14+/-0.00)e+02".toList := by decide +kernel
example : formatU (.fin (314159 / 1000)) (.fin (1 / 100)) ".2".toList = .ok "(3.1+/-0.0)e+02".toList := by decide +kernel
example : formatU (.fin (314159 / 1000)) (.fin (123 / 10)) ".2u".toList = .ok "314+/-12".toList := by decide +kernel
example : formatU (.fin (314159 / 1000)) (.fin (123 / 10)) ".1uf".toList = .ok "314+/-12".toList := by decide +kernel

end Unc
