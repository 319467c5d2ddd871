import Verif.Lemmas.FormatSpecial
import Verif.Props.C38_Format

/-!
# Formatting when one of the values is not finite or the uncertainty is zero (C42, C43, C44)
-/

set_option autoImplicit false

namespace Unc

/-! ### C43 -/

/-- **C43**: whatever the nominal value and the format, an uncertainty that is exactly zero is printed as the integer 0,
without exponent attached to it; it has more than one character only if the format has the zero flag. -/
theorem C43_zero (x : FNum) (spec out : Str) (h : formatU x (.fin 0) spec = .ok out) :
    ∃ p Z, parseSpec spec = some p ∧ BareUncertainty out Z ∧ IsZeroText Z ∧ (p.zero = [] → Z = ['0']) := by
  obtain ⟨p, plan, hp, hv, hplan, hf⟩ := format_ok h
  obtain ⟨lo, S', pr, hl, -, -, -, herr, -, ht, -⟩ := formatPlan_ok hplan
  have e0 : (FNum.fin 0).scale (scaleOf p) = .fin 0 := by simp [FNum.scale]
  rw [e0] at hl
  obtain ⟨rfl, -⟩ := digitsLimit_special (by decide +kernel) hl
  have herr : plan.errorMain = .fin 0 := by rw [herr]; simp [FNum.scale]
  rw [herr] at hf
  refine ⟨p, ?_⟩
  unfold formatNum at hf
  by_cases hS : 'S' ∈ plan.options
  · rw [if_pos hS] at hf
    obtain ⟨z, Ns, U, -, -, -, hU, hpad⟩ := formatShorthand_ok hv hf
    obtain ⟨c, i, j, rfl⟩ := hpad.rep
    obtain rfl : ['0'] = U := by
      simp only [uncertStr, if_true] at hU
      injection hU
    exact ⟨['0'], hp, .shorthand _ _ _ _ _ _, ⟨by simp, by simp⟩, fun _ => rfl⟩
  · rw [if_neg hS] at hf
    obtain ⟨z, z', Ns, Es, A, B, hz, -, -, hE, -, hB, rfl⟩ := formatPm_ok hv hf
    have hsx : fmtSuffixE plan.nomMain (.fin 0) p plan.prec plan.mainPresType = fixedSuffix 0 plan.mainPresType := by
      have h0 : natStr 0 = ['0'] := by decide +kernel
      simp [fmtSuffixE, FNum.truthy, fixedSuffix, h0]
    rw [hsx, pyFormat_fixed 0 none (by simp) z' _ 0 ht] at hE
    injection hE with hE
    obtain ⟨h1, h2, h3⟩ := fixedStr_zero z' (decide (p.comma ≠ [])) ht
    rw [hE] at h1 h2 h3
    have hsp : specialError (.fin 0) = true := by decide +kernel
    have hlat : latexErr plan.options (.fin 0) Es = Es := by simp [latexErr]
    simp only [hsp, hlat, Bool.true_eq_false, and_false, if_false, List.append_nil] at hB
    exact ⟨Es, hp, wrapPm_bare hB, ⟨h1, h2⟩, fun h => h3 (hz (.inr h)).2⟩

example : formatU (.fin (314159 / 100000)) (.fin 0) ".3f".toList = .ok "3.142+/-0".toList := by decide +kernel
example : formatU (.fin 314159) (.fin 0) ".3e".toList = .ok "(3.142+/-0)e+05".toList := by decide +kernel
example : formatU (.fin 314159) (.fin 0) "20.3e".toList = .ok "           3.142e+05+/-                   0".toList := by decide +kernel
example : formatU (.fin 314159) (.fin 0) "012.3e".toList = .ok "0003.142e+05+/-000000000000".toList := by decide +kernel
example : formatU .nan (.fin 0) "S".toList = .ok "nan(0)".toList := by decide +kernel

/-- **C43**, converse: in the default format, a finite non-zero uncertainty is printed as a number that is not zero
(finite nominal value). -/
theorem C43_nonzero (x s : ℚ) (hs : 0 < s) (out : Str) (h : formatU (.fin x) (.fin s) [] = .ok out) :
    ∃ n u, Faithful x s out n u false ∧ u.value ≠ 0 := by
  have hp : parseSpec [] = some ⟨[], [], [], [], [], [], none, [], [], []⟩ := by decide +kernel
  obtain ⟨n, u, t, d, hF, -, ht, h⟩ := C63_default_digits x s hs [] out _ hp rfl h
  refine ⟨n, u, hF, ?_⟩
  have hunit : 0 < u.unit := ten_pos _
  rcases h with ⟨m, hm, c1, c2, c3⟩ | ⟨-, -, h⟩
  · have : m ≠ 0 := by
      rintro rfl
      rcases Nat.lt_or_ge 354 t with h | h
      · rcases Nat.lt_or_ge 949 t with h' | h'
        · exact absurd (c3 h').1 (by decide)
        · exact absurd (c2 h h').1 (by decide)
      · exact absurd (c1 h).1 (by decide)
    rw [hm]
    have : (m : ℚ) ≠ 0 := by exact_mod_cast this
    positivity
  · linarith

example : formatU (.fin 3) (.fin (1 / 100000)) [] = .ok "3.000000+/-0.000010".toList := by decide +kernel

/-- The text printed by Python for a float without format specification has a decimal point or an exponent. -/
theorem pyFormat_empty (q : ℚ) {U : Str} (h : pyFormat (.fin q) [] = .ok U) : '.' ∈ U ∨ 'e' ∈ U := by
  have h0 : parseFloatSpec [] = some {} := by decide +kernel
  unfold pyFormat at h
  rw [h0] at h
  injection h with h
  rw [← h]
  have hr : '.' ∈ (finiteParts |q| none none).2 ∨ 'e' ∈ (finiteParts |q| none none).2 := by
    unfold finiteParts
    simp only []
    split_ifs
    · unfold plainDigits
      simp only []
      split_ifs
      all_goals (left; simp)
    · unfold expNotation
      right
      simp
  unfold formatWith numberParts
  simp only [Bool.false_eq_true, if_false, List.mem_append]
  tauto

/-- **C43**, converse, nominal value infinite or NaN: in the default format, a finite non-zero uncertainty is printed with a
decimal point or an exponent. -/
theorem C43_nonzero_special (x : FNum) (hx : x = .nan ∨ ∃ b, x = .inf b) (s : ℚ) (hs : 0 < s) (out : Str)
    (h : formatU x (.fin s) [] = .ok out) : ∃ U X, UncertaintyText out U X ∧ ('.' ∈ U ∨ 'e' ∈ U) := by
  have hp : parseSpec [] = some ⟨[], [], [], [], [], [], none, [], [], []⟩ := by decide +kernel
  have hx' : x.isInfinite = true := by
    rcases hx with rfl | ⟨b, rfl⟩ <;> rfl
  obtain ⟨p', plan, hp', hv, hplan, hU⟩ := format_uncertainty h
  rw [hp] at hp'
  obtain rfl := Option.some.inj hp'
  obtain ⟨l, S', hsame, hS', hrr, hr, hd, hE, hle, herr, hnom, hprec, hty⟩ := formatPlan_nonfin hv hx' hs hplan (by decide)
  have hu : 0 < S' / (10 : ℚ) ^ plan.commonExp.getD 0 := div_pos hS' (ten_pos _)
  obtain ⟨z, U, X, hz, hUT, hX, hU⟩ := hU _ hu.ne' herr
  refine ⟨U, X, hUT, ?_⟩
  obtain rfl := hz (.inl rfl)
  have ht : plan.errorMain.truthy = true := by rw [herr]; simp [FNum.truthy, hu.ne']
  have hsx : fmtSuffixE plan.nomMain plan.errorMain ⟨[], [], [], [], [], [], none, [], [], []⟩ plan.prec plan.mainPresType = [] := by
    simp [fmtSuffixE, ht, hnom, isGType, gSuffix]
  rw [if_neg (by simp), hsx, herr] at hU
  exact pyFormat_empty _ hU

example : formatU .nan (.fin 3) [] = .ok "nan+/-3.0".toList := by decide +kernel

/-! ### C42 -/

/-- The number of significant digits that a general format (`g`, `G` or no type) gives to a float: the precision, or 6, or
12 when there is no type. -/
def generalDigits (p : FmtParts) : ℕ :=
  match p.prec with
  | some d => max 1 (digitsVal d)
  | none => if p.type = [] then 12 else 6

theorem floatDigits_general {p : FmtParts} (hv : p.Valid) (ht : p.type = [] ∨ p.type = ['g'] ∨ p.type = ['G']) :
    floatDigits p (presOf p) = generalDigits p := by
  unfold floatDigits generalDigits presOf
  cases hp : p.prec with
  | none => rcases ht with h | h | h <;> simp [h]
  | some d =>
    obtain ⟨hne, -⟩ := hv.prec d hp
    rcases ht with h | h | h <;> simp [h, hne] <;> split_ifs <;> omega

theorem pres_e {p : FmtParts} (ht : p.type = ['e'] ∨ p.type = ['E']) :
    (presOf p = some 'e' ∨ presOf p = some 'E') ∧ ¬ (presOf p = some 'f' ∨ presOf p = some 'F') ∧ isGType p.type = false ∧
      presOf p ≠ none := by
  unfold presOf isGType
  rcases ht with h | h <;> rw [h] <;> decide

theorem pres_g {p : FmtParts} (ht : p.type = [] ∨ p.type = ['g'] ∨ p.type = ['G']) :
    ¬ (presOf p = some 'e' ∨ presOf p = some 'E') ∧ ¬ (presOf p = some 'f' ∨ presOf p = some 'F') ∧ isGType p.type = true := by
  unfold presOf isGType
  rcases ht with h | h | h <;> rw [h] <;> decide

/-- The mantissa of a number whose exponent is the one of the number shown. -/
theorem mantissa_bounds {n : Shown} {e : ℤ} (h1 : n.exp = some e) (h : HasExponent n.value e) :
    1 ≤ |n.mantissa| ∧ |n.mantissa| < 10 := by
  obtain ⟨a1, a2⟩ := h
  have hp := ten_pos e
  have hval : n.value = n.mantissa * (10 : ℚ) ^ e := by unfold Shown.value; rw [h1]; rfl
  rw [hval, abs_mul, abs_of_pos hp] at a1 a2
  rw [ten_add, zpow_one] at a2
  exact ⟨by nlinarith, by nlinarith⟩

/-- **C42**, formats `e` and `E`, uncertainty zero, infinite or NaN: the exponent is the one of the nominal value
shown. -/
theorem C42_nominal_e (x : ℚ) (hx : x ≠ 0) (s : FNum) (hs : s = .fin 0 ∨ s = .nan ∨ ∃ b, s = .inf b) (spec out : Str) (p : FmtParts)
    (hp : parseSpec spec = some p) (ht : p.type = ['e'] ∨ p.type = ['E']) (h : formatU (.fin x) s spec = .ok out) :
    ∃ (N X : Str) (n : Shown) (e : ℤ), NominalText out N X ∧ Fixed N n.places n.mantissa ∧ OptExp X n.exp ∧ n.Near x ∧
      n.exp = some e ∧ HasExponent n.value e ∧ 1 ≤ |n.mantissa| ∧ |n.mantissa| < 10 := by
  have hsp : specialError s = true := by
    rcases hs with rfl | rfl | ⟨b, rfl⟩
    · decide +kernel
    · rfl
    · cases b <;> rfl
  obtain ⟨p', plan, hp', hv, hplan, z, N, X, -, hNT, hX, hN⟩ := format_nominal h
  obtain rfl : p = p' := by rw [hp] at hp'; injection hp'
  obtain ⟨q1, q2, q3, q4⟩ := pres_e ht
  obtain ⟨l, -, hr, hE, hle, hnom, -, hprec, hty⟩ := formatPlan_special hx hsp hplan q2
  rw [if_pos (.inl q1)] at hE
  have hsx : fmtSuffixN plan.errorMain p plan.prec plan.mainPresType = fixedSuffix plan.prec plan.mainPresType := by
    simp [fmtSuffixN, q3]
  rw [hnom, hsx, pyFormat_fixed _ _ (sign_head hv) z _ _ hty] at hN
  injection hN with hN
  have hF := fixedStr_fixed (x / (10 : ℚ) ^ plan.commonExp.getD 0) p.sign.head? z (decide (p.comma ≠ [])) plan.prec hty
  rw [hN] at hF
  have hval : HasExponent (shownOf x plan.commonExp l).value (firstDigit (pyRound |x| (-l))) := by
    have h1 := (ref_exponent hr).1
    have hp := ten_pos l
    rw [shownOf_value, shownOf_unit _ hle]
    have e : |x| / (10 : ℚ) ^ l = |x / (10 : ℚ) ^ l| := by rw [abs_div, abs_of_pos hp]
    rw [e, rhe_abs] at h1
    unfold HasExponent at h1 ⊢
    rw [abs_mul] at h1 ⊢
    push_cast at h1
    rwa [abs_abs] at h1
  have hb := mantissa_bounds (n := shownOf x plan.commonExp l) hE hval
  refine ⟨N, X, shownOf x plan.commonExp l, _, hNT, ?_, hX, shownOf_near _ _ _, hE, hval, hb.1, hb.2⟩
  rw [hprec q4] at hF
  exact hF

example : formatU (.fin 99996) .nan ".3e".toList = .ok "(1.000+/-nan)e+05".toList := by decide +kernel
example : formatU (.fin 99996) (.fin 0) "20.3eS".toList = .ok "        1.000(0)e+05".toList := by decide +kernel

/-- **C42**, formats `g`, `G` and no type, uncertainty zero, infinite or NaN: with `10**e` the decimal exponent of the
nominal value rounded to the number of digits of the format, and `10**l` its last digit, an exponent is used if and only
if `e < -4` or `l > 0`, and it is `e`. -/
theorem C42_nominal_g (x : ℚ) (hx : x ≠ 0) (s : FNum) (hs : s = .fin 0 ∨ s = .nan ∨ ∃ b, s = .inf b) (spec out : Str) (p : FmtParts)
    (hp : parseSpec spec = some p) (ht : p.type = [] ∨ p.type = ['g'] ∨ p.type = ['G'])
    (h : formatU (.fin x) s spec = .ok out) :
    ∃ N X, ∃ m l e : ℤ, NominalText out N X ∧ Rounds |x| l m ∧ HasDigits m (generalDigits p) ∧
      HasExponent (m * (10 : ℚ) ^ l) e ∧ OptExp X (generalExp e l) := by
  have hsp : specialError s = true := by
    rcases hs with rfl | rfl | ⟨b, rfl⟩
    · decide +kernel
    · rfl
    · cases b <;> rfl
  obtain ⟨p', plan, hp', hv, hplan, z, N, X, -, hNT, hX, hN⟩ := format_nominal h
  obtain rfl : p = p' := by rw [hp] at hp'; injection hp'
  obtain ⟨q1, q2, q3⟩ := pres_g ht
  obtain ⟨l, hd, hr, hE, -⟩ := formatPlan_special hx hsp hplan q2
  rw [floatDigits_general hv ht] at hd
  simp only [q1, false_or] at hE
  refine ⟨N, X, _, l, _, hNT, pyRound_rounds _ _, hd, (ref_exponent hr).1, ?_⟩
  unfold generalExp
  rw [← hE]
  exact hX

example : formatU (.fin 1234567) .nan "g".toList = .ok "(1.23457+/-nan)e+06".toList := by decide +kernel
example : formatU (.fin 1234567) .nan [] = .ok "1234567.0+/-nan".toList := by decide +kernel

/-- **C42**, formats `e` and `E`, nominal value infinite or NaN: the exponent is the one of the uncertainty shown. -/
theorem C42_uncertainty_e (x : FNum) (hx : x = .nan ∨ ∃ b, x = .inf b) (s : ℚ) (hs : 0 < s) (spec out : Str) (p : FmtParts)
    (hp : parseSpec spec = some p) (ht : p.type = ['e'] ∨ p.type = ['E']) (h : formatU x (.fin s) spec = .ok out) :
    ∃ (U X : Str) (u : Shown) (e : ℤ) (s' : ℚ), UncertaintyText out U X ∧ (Fixed U u.places u.mantissa ∨ Bracket u.places U u) ∧ OptExp X u.exp ∧
      SameOrPdg s s' ∧ u.Near s' ∧ u.exp = some e ∧ HasExponent u.value e ∧ 1 ≤ u.mantissa ∧ u.mantissa < 10 := by
  have hx' : x.isInfinite = true := by
    rcases hx with rfl | ⟨b, rfl⟩ <;> rfl
  obtain ⟨p', plan, hp', hv, hplan, hU⟩ := format_uncertainty h
  obtain rfl : p = p' := by rw [hp] at hp'; injection hp'
  obtain ⟨q1, q2, q3, q4⟩ := pres_e ht
  obtain ⟨l, S', hsame, hS', hrr, hr, -, hE, hle, herr, -, hprec, hty⟩ := formatPlan_nonfin hv hx' hs hplan q2
  rw [if_pos (.inl q1)] at hE
  have hu : 0 < S' / (10 : ℚ) ^ plan.commonExp.getD 0 := div_pos hS' (ten_pos _)
  obtain ⟨z, U, X, -, hUT, hX, hU⟩ := hU _ hu.ne' herr
  have hval : HasExponent (shownOf S' plan.commonExp l).value (firstDigit (pyRound s (-l))) := by
    rw [shownOf_value, shownOf_unit _ hle, hrr]
    exact (ref_exponent hr).1
  have hb := mantissa_bounds (n := shownOf S' plan.commonExp l) hE hval
  have hnn : 0 ≤ (shownOf S' plan.commonExp l).mantissa := pyRound_nonneg hu.le _
  rw [abs_of_nonneg hnn] at hb
  refine ⟨U, X, shownOf S' plan.commonExp l, _, S', hUT, ?_, hX, hsame, shownOf_near _ _ _, hE, hval, hb.1, hb.2⟩
  by_cases hS : 'S' ∈ p.options
  · right
    rw [if_pos hS] at hU
    rw [hU, hprec]
    exact shortText_bracket hu.le _ _
  · left
    rw [if_neg hS] at hU
    have hsx : fmtSuffixE plan.nomMain plan.errorMain p plan.prec plan.mainPresType = fixedSuffix plan.prec plan.mainPresType := by
      have : plan.errorMain.truthy = true := by rw [herr]; simp [FNum.truthy, hu.ne']
      simp [fmtSuffixE, q3, this]
    rw [hsx, herr, pyFormat_fixed _ none (by simp) z _ _ hty] at hU
    injection hU with hU
    have hF := fixedStr_fixed (S' / (10 : ℚ) ^ plan.commonExp.getD 0) none z (decide (p.comma ≠ [])) plan.prec hty
    rw [hU, hprec] at hF
    exact hF

example : formatU .nan (.fin 99996) ".3e".toList = .ok "(nan+/-1.000)e+05".toList := by decide +kernel
example : formatU .nan (.fin 97) "ueS".toList = .ok "nan(1.0)e+02".toList := by decide +kernel

/-- **C42**, formats `g`, `G` and no type, nominal value infinite or NaN. -/
theorem C42_uncertainty_g (x : FNum) (hx : x = .nan ∨ ∃ b, x = .inf b) (s : ℚ) (hs : 0 < s) (spec out : Str) (p : FmtParts)
    (hp : parseSpec spec = some p) (ht : p.type = [] ∨ p.type = ['g'] ∨ p.type = ['G']) (h : formatU x (.fin s) spec = .ok out) :
    ∃ U X, ∃ m l e : ℤ, UncertaintyText out U X ∧ Rounds s l m ∧
      (if p.prec = none ∧ p.uncertPrec ≠ [] then PdgDigits s m l else HasDigits m (generalDigits p)) ∧
      HasExponent (m * (10 : ℚ) ^ l) e ∧ OptExp X (generalExp e l) := by
  have hx' : x.isInfinite = true := by
    rcases hx with rfl | ⟨b, rfl⟩ <;> rfl
  obtain ⟨p', plan, hp', hv, hplan, hU⟩ := format_uncertainty h
  obtain rfl : p = p' := by rw [hp] at hp'; injection hp'
  obtain ⟨q1, q2, q3⟩ := pres_g ht
  obtain ⟨l, S', hsame, hS', hrr, hr, hd, hE, hle, herr, -, hprec, hty⟩ := formatPlan_nonfin hv hx' hs hplan q2
  simp only [q1, false_or, not_false_eq_true, or_true, true_imp_iff] at hE hd
  rw [floatDigits_general hv ht] at hd
  have hu : 0 < S' / (10 : ℚ) ^ plan.commonExp.getD 0 := div_pos hS' (ten_pos _)
  obtain ⟨z, U, X, -, hUT, hX, hU⟩ := hU _ hu.ne' herr
  refine ⟨U, X, _, l, _, hUT, pyRound_rounds _ _, hd, (ref_exponent hr).1, ?_⟩
  unfold generalExp
  rw [← hE]
  exact hX

example : formatU .nan (.fin 1234567) "g".toList = .ok "(nan+/-1.23457)e+06".toList := by decide +kernel
/-- The exponent is the one of the rounded uncertainty, but the uncertainty is not rounded. -/
example : formatU .nan (.fin 1234567) "u".toList = .ok "(nan+/-1.234567)e+06".toList := by decide +kernel

/-! ### C44 -/

/-- **C44 fails**: `'{:.3g}'` does not apply the precision to the nominal value when the uncertainty is zero, whereas
`format(1.23456, '.3g')` is `1.23`. -/
theorem C44_fails_precision_ignored :
    formatU (.fin (123456 / 100000)) (.fin 0) ".3g".toList = .ok "1.23456+/-0".toList ∧
      pyFormat (.fin (123456 / 100000)) ".3g".toList = .ok "1.23".toList := by decide +kernel

/-- The same for a NaN uncertainty; and a precision can be an error. -/
theorem C44_fails_precision_error :
    formatU (.fin (123456 / 100000)) .nan ".3g".toList = .ok "1.23456+/-nan".toList ∧
      formatU (.fin (123456 / 100000)) (.fin 0) ",.3g".toList = .error .valueError := by decide +kernel

theorem format_general {x : ℚ} {s : FNum} (hs : s = .fin 0 ∨ s = .nan) {spec out : Str} {p : FmtParts}
    (hp : parseSpec spec = some p) (ht : p.type = [] ∨ p.type = ['g'] ∨ p.type = ['G']) (hw : p.width = [])
    (h : formatU (.fin x) s spec = .ok out) :
    ∃ N X, NominalText out N X ∧ (X = [] → pyFormat (.fin x) (p.sign ++ p.comma ++ gSuffix p) = .ok N) := by
  have hsp : specialError s = true := by
    rcases hs with rfl | rfl
    · decide +kernel
    · rfl
  obtain ⟨p', plan, hp', hv, hplan, z, N, X, hz, hNT, hX, hN⟩ := format_nominal h
  obtain rfl : p = p' := by rw [hp] at hp'; injection hp'
  refine ⟨N, X, hNT, ?_⟩
  rintro rfl
  obtain ⟨lo, S', pr, hl, -, -, hnom, herr, -, -, -⟩ := formatPlan_ok hplan
  have hE : plan.commonExp = none := by
    cases hE : plan.commonExp with
    | none => rfl
    | some e =>
      rw [hE] at hX
      exfalso
      obtain ⟨t, ht⟩ : ∃ t : Str, t = [] ∧ ExpShown t e := ⟨[], rfl, hX⟩
      obtain ⟨h1, h2⟩ := ht
      cases h2 <;> simp at h1
  have hsc : scaleOf p = 1 := by
    unfold scaleOf
    rw [if_neg]
    rcases ht with h | h | h <;> rw [h] <;> decide
  have hspe : specialError plan.errorMain = true := by
    have h1 := (digitsLimit_special (by rw [specialError_scale (scaleOf_pos p)]; exact hsp) hl).1
    simp only [] at h1
    rw [herr, specialError_scale (by have := ten_pos (plan.commonExp.getD 0); positivity), h1, specialError_scale (scaleOf_pos p)]
    exact hsp
  have hnom' : plan.nomMain = .fin x := by
    rw [hnom, hE, hsc]
    simp [FNum.scale]
  rw [hnom', hz (.inl hw), ← prefix_plain hv] at hN
  simpa [fmtSuffixN, hspe, (pres_g ht).2.2] using hN

/-- What is done instead (**C44 fails** in general): without width and exponent, the nominal value is printed with the
precision as its *width* (this is `format(x, '10g')` and not `format(x, '.10g')`). -/
theorem C44_fails_width (x : ℚ) (s : FNum) (hs : s = .fin 0 ∨ s = .nan) (spec out : Str) (p : FmtParts)
    (hp : parseSpec spec = some p) (ht : p.type = [] ∨ p.type = ['g'] ∨ p.type = ['G']) (hw : p.width = []) (d : Str) (hd : p.prec = some d)
    (h : formatU (.fin x) s spec = .ok out) :
    ∃ N X, NominalText out N X ∧ (X = [] → pyFormat (.fin x) (p.sign ++ p.comma ++ d ++ p.type) = .ok N) := by
  obtain ⟨N, X, h1, h2⟩ := format_general hs hp ht hw h
  refine ⟨N, X, h1, fun hX => ?_⟩
  have := h2 hX
  simpa [gSuffix, hd] using this

/-- **C44**, proved part: the format without precision is applied as for a float, when no exponent is used and there is no
width. -/
theorem C44_format_kept_partial (x : ℚ) (s : FNum) (hs : s = .fin 0 ∨ s = .nan) (spec out : Str) (p : FmtParts)
    (hp : parseSpec spec = some p) (ht : p.type = [] ∨ p.type = ['g'] ∨ p.type = ['G']) (hw : p.width = []) (hd : p.prec = none)
    (h : formatU (.fin x) s spec = .ok out) :
    ∃ N X, NominalText out N X ∧ (X = [] → pyFormat (.fin x) (p.sign ++ p.comma ++ p.type) = .ok N) := by
  obtain ⟨N, X, h1, h2⟩ := format_general hs hp ht hw h
  refine ⟨N, X, h1, fun hX => ?_⟩
  have := h2 hX
  simpa [gSuffix, hd] using this

example : formatU (.fin (123456 / 100)) (.fin 0) "+,g".toList = .ok "+1,234.56+/-0".toList := by decide +kernel
example : pyFormat (.fin (123456 / 100)) "+,g".toList = .ok "+1,234.56".toList := by decide +kernel
example : formatU (.fin (123456 / 100)) (.fin 0) ".10g".toList = .ok "   1234.56+/-0".toList := by decide +kernel

end Unc
