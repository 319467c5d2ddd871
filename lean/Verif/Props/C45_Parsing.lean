import Verif.Lemmas.ParsePm

/-!
# Parsing of the shorthand notation and of factored exponents (C45, C46)

The forms of numbers are those of `Spec/Text.lean`; arithmetic is exact.
-/

set_option autoImplicit false

namespace Unc

/-! ### C45 -/

/-- **C45.**  `ufloat_fromstr` of a sign, a decimal number, an optional uncertainty in parentheses, and an optional
exponent: the nominal value is the decimal value times `10**n`, and the uncertainty is the value in parentheses if it
has a decimal point (or is `nan` or `inf`), else that number of units of the last digit of the nominal value, else one
unit of that digit; it is multiplied by `10**n` too.  Surrounding spaces are ignored. -/
theorem C45_shorthand (a sg x b : Str) (d : Decimal) (u : ShortUncert) (n : ℤ) (ha : IsSpaces a) (hb : IsSpaces b)
    (hsg : IsSign sg) (hx : ExpPart x n) (hn : n ≤ 308) (hp : u.InUnits → d.places ≤ 308) :
    ufloatFromstr (a ++ (sg ++ (d.text ++ (u.text ++ x))) ++ b) =
      .ok (FNum.fin (signVal sg * d.value * 10 ^ n), (u.value (10 ^ (-(d.places : ℤ)))).scale (10 ^ n)) := by
  rw [fromstr_paren ha hb hsg d u hx, parseError_ok hsg d u hx hn hp]
  show (if PyText.isNegFinite ((u.value (10 ^ (-(d.places : ℤ)))).scale (10 ^ n)) then _ else _) = _
  rw [if_neg]
  · rfl
  · rw [ShortUncert.value_nonneg u (zpow_pos (by norm_num) _) (zpow_pos (by norm_num) _)]
    decide

/-- **C45**, exponents that are not in the range of floats: an error, not a wrong number. -/
theorem C45_out_of_range (a sg x b : Str) (d : Decimal) (u : ShortUncert) (n : ℤ) (ha : IsSpaces a) (hb : IsSpaces b)
    (hsg : IsSign sg) (hx : ExpPart x n) (hn : 308 < n) :
    (ufloatFromstr (a ++ (sg ++ (d.text ++ (u.text ++ x))) ++ b) : PyRes (FNum × FNum)) = .error .overflowError := by
  rw [fromstr_paren ha hb hsg d u hx, parseError_overflow hsg d u hx hn]
  rfl

/-- `-12.3456` -/
def exampleDecimal : Decimal :=
  ⟨"12".toList, some "3456".toList, by decide +kernel, by decide +kernel, by decide +kernel⟩

/-- `-12.3456(78)e-6`, an example of the documentation: -12.3456e-6 ± 0.0078e-6. -/
example : ufloatFromstr " -12.3456(78)e-6".toList =
    .ok (FNum.fin (-123456 / 10000 * 10 ^ (-6 : ℤ)), FNum.fin (78 / 10000 * 10 ^ (-6 : ℤ))) := by
  have h := C45_shorthand [' '] ['-'] "e-6".toList [] exampleDecimal (.units "78".toList (by decide +kernel) (by decide +kernel))
    (-6) (by decide +kernel) (by simp [IsSpaces]) (.inr (.inr rfl))
    (.e _ _ ⟨['-'], ['6'], .inr (.inr rfl), by decide +kernel, by decide +kernel, .inl rfl, by decide +kernel⟩)
    (by norm_num) (fun _ => by decide +kernel)
  have h1 : [' '] ++ (['-'] ++ (exampleDecimal.text ++ ((ShortUncert.units "78".toList (by decide +kernel) (by decide +kernel)).text
      ++ "e-6".toList))) ++ [] = " -12.3456(78)e-6".toList := by decide +kernel
  rw [h1] at h
  rw [h]
  decide +kernel

/-- `1.23(3.)` is 1.23 ± 3 -/
example : (ufloatFromstr "1.23(3.)".toList : PyRes (FNum × FNum)) = .ok (.fin (123 / 100), .fin 3) := by decide +kernel

/-- `.29` is 0.29 ± 0.01 -/
example : (ufloatFromstr ".29".toList : PyRes (FNum × FNum)) = .ok (.fin (29 / 100), .fin (1 / 100)) := by decide +kernel

/-- **C45**: the spaces of the statements on parsed texts are the white space of Unicode, no-break spaces included
(the code points are those of the documentation of Python's `str.isspace`). -/
theorem C45_spaces (s : Str) :
    IsSpaces s ↔ ∀ c ∈ s, c.toNat ∈ [0x9, 0xa, 0xb, 0xc, 0xd, 0x1c, 0x1d, 0x1e, 0x1f, 0x20, 0x85, 0xa0, 0x1680, 0x2000,
      0x2001, 0x2002, 0x2003, 0x2004, 0x2005, 0x2006, 0x2007, 0x2008, 0x2009, 0x200a, 0x2028, 0x2029, 0x202f, 0x205f,
      0x3000] := by
  refine forall_congr' fun c => imp_congr_right fun _ => ?_
  simp only [isSpace, Bool.or_eq_true, Bool.and_eq_true, decide_eq_true_eq, beq_iff_eq, List.mem_cons,
    List.not_mem_nil, or_false]
  omega

/-- **C45**: the digits of the statements on parsed texts are 0 to 9. -/
theorem C45_digits (s : Str) :
    IsDigits s ↔ ∀ c ∈ s, c ∈ ['0', '1', '2', '3', '4', '5', '6', '7', '8', '9'] := by
  refine forall_congr' fun c => imp_congr_right fun _ => ?_
  have e : ∀ d : Char, c = d ↔ c.toNat = d.toNat := fun d =>
    ⟨fun h => by rw [h], fun h => Char.ext (UInt32.toNat_inj.mp h)⟩
  simp only [isDigit, Bool.and_eq_true, decide_eq_true_eq, List.mem_cons, List.not_mem_nil, or_false, e]
  have hd : '0'.toNat = 48 ∧ '1'.toNat = 49 ∧ '2'.toNat = 50 ∧ '3'.toNat = 51 ∧ '4'.toNat = 52 ∧ '5'.toNat = 53 ∧
      '6'.toNat = 54 ∧ '7'.toNat = 55 ∧ '8'.toNat = 56 ∧ '9'.toNat = 57 := by decide
  obtain ⟨h0, h1, h2, h3, h4, h5, h6, h7, h8, h9⟩ := hd
  rw [h0, h1, h2, h3, h4, h5, h6, h7, h8, h9]
  omega

/-- A no-break space before a number. -/
example : (ufloatFromstr (Char.ofNat 0xa0 :: "1.2(3)".toList) : PyRes (FNum × FNum)) = .ok (.fin (12 / 10), .fin (3 / 10)) := by
  decide +kernel

/-! ### C46 -/

/-- **C46.**  `ufloat_fromstr('(N±U)eX')` multiplies both `N` and `U` by `10**X` (no exponent: `10**0`), for all the
ways of writing the numbers, the plus-minus symbol and the exponent.  (A negative `U` is refused.) -/
theorem C46_factored_exponent_partial (a N pm U x b : Str) (v w : FNum) (n : ℤ) (ha : IsSpaces a) (hb : IsSpaces b)
    (hN : FloatText N v) (hpm : IsPm pm) (hU : FloatText U w) (hx : ExpPart x n) (hn : n ≤ 308)
    (hw : w.isNeg = true → w.isInfinite = true) :
    ufloatFromstr (a ++ ('(' :: (N ++ pm ++ U ++ ')' :: x)) ++ b) = .ok (v.scale (10 ^ n), w.scale (10 ^ n)) := by
  have hneg : (PyText.isNegFinite (w.scale (10 ^ n)) : Bool) = false := by
    have hpos : (0 : ℚ) < 10 ^ n := zpow_pos (by norm_num) _
    cases w with
    | fin q =>
      have hq : ¬ q < 0 := by
        intro h
        have := hw (by simp [FNum.isNeg, h])
        simp [FNum.isInfinite] at this
      show ((FNum.fin (q * 10 ^ n)).isNeg && _) = false
      have : ¬ (q * 10 ^ n < 0) := not_lt.2 (mul_nonneg (not_lt.1 hq) hpos.le)
      simp [FNum.isNeg, this]
    | inf s => cases s <;> rfl
    | nan => rfl
  have hbody : '\n' ∉ N ++ pm ++ U := by
    intro h
    rcases List.mem_append.1 h with h | h
    · rcases List.mem_append.1 h with h | h
      · exact (hN.chars _ h).1 rfl
      · rcases hpm with rfl | rfl <;> exact absurd h (by decide)
    · exact (hU.chars _ h).1 rfl
  rw [fromstr_eq]
  by_cases hxe : x = []
  · obtain rfl := hx.zero hxe
    subst hxe
    rw [strip_wrapped ha hb, strToNumber_wrapped (FloatText.pm_head (y := w) hN hpm), afterFactor_pm hN hU hpm]
    show checked _ = _
    unfold checked
    simp only [zpow_zero] at hneg ⊢
    rw [if_neg (by rw [hneg]; decide)]
  · rw [strip_factor ha hb hx hxe, strToNumber_factor hbody hx hxe hn, afterFactor_pm hN hU hpm]
    show checked _ = _
    unfold checked
    rw [if_neg (by rw [hneg]; decide)]

/-- **C46**, exponents that are not in the range of floats: an error, not a wrong number. -/
theorem C46_out_of_range (a body x b : Str) (n : ℤ) (ha : IsSpaces a) (hb : IsSpaces b) (hline : '\n' ∉ body)
    (hx : ExpPart x n) (hn : 308 < n) :
    (ufloatFromstr (a ++ ('(' :: (body ++ ')' :: x)) ++ b) : PyRes (FNum × FNum)) = .error .overflowError := by
  have hx0 : x ≠ [] := by
    rintro rfl
    have := hx.zero rfl
    omega
  rw [fromstr_eq, strip_factor ha hb hx hx0, strToNumber_factor_overflow hline hx hx0 hn]
  rfl

/-- **C46**, for the numbers alone: `N±U`. -/
theorem C46_no_exponent (a N pm U b : Str) (v w : FNum) (ha : IsSpaces a) (hb : IsSpaces b) (hN : FloatText N v)
    (hpm : IsPm pm) (hU : FloatText U w) (hw : w.isNeg = true → w.isInfinite = true) :
    ufloatFromstr (a ++ (N ++ pm ++ U) ++ b) = .ok (v, w) := by
  have h1 : ∀ y : FNum, y.scale 1 = y := by
    intro y
    cases y <;> simp [FNum.scale]
  rw [fromstr_pm ha hb hN hU hpm, h1, h1]
  unfold checked
  rw [if_neg]
  show ¬ ((w.isNeg && !w.isInfinite) = true)
  intro h
  rw [Bool.and_eq_true] at h
  rw [hw h.1] at h
  exact absurd h.2 (by decide)

/-- **C46**, for whatever is between the parentheses, when it uses a plus-minus symbol: if `body` alone is parsed as `v`
and `w`, then `(body)eX` is parsed as these numbers multiplied by `10**X`. -/
theorem C46_homogeneous_partial (a body x b : Str) (v w : FNum) (n : ℤ) (ha : IsSpaces a) (hb : IsSpaces b)
    (hpm : ∃ N pm U, IsPm pm ∧ body = N ++ pm ++ U) (hline : '\n' ∉ body)
    (hs : strip body = body) (hbr : body.head? ≠ some '(') (hx : ExpPart x n) (hx0 : x ≠ []) (hn : n ≤ 308)
    (h : ufloatFromstr body = .ok (v, w)) :
    ufloatFromstr (a ++ ('(' :: (body ++ ')' :: x)) ++ b) = .ok (v.scale (10 ^ n), w.scale (10 ^ n)) := by
  have hpos : (0 : ℚ) < 10 ^ n := zpow_pos (by norm_num) _
  rw [fromstr_eq, hs, strToNumber_plain hbr] at h
  rw [fromstr_eq, strip_factor ha hb hx hx0, strToNumber_factor hline hx hx0 hn]
  have hsome : ∃ m, Re.first pmRe body = some m := by
    obtain ⟨N, pm, U, hpm, rfl⟩ := hpm
    have hmem : ∃ t, ((N, U), t) ∈ pmRe (N ++ pm ++ U) := by
      refine ⟨[], ?_⟩
      unfold pmRe
      refine Re.mem_seq.2 ⟨N, pm ++ U, Re.mem_star.2 ⟨by simp, ?_⟩, ?_⟩
      · intro c hc
        exact dot_of_ne (by rintro rfl; exact hline (by simp [hc]))
      · refine Re.mem_seq.2 ⟨(), U, Re.mem_alt.2 ?_, Re.mem_seq.2 ⟨U, [], Re.mem_star.2 ⟨by simp, ?_⟩, Re.mem_ret.2 ⟨rfl, rfl⟩⟩⟩
        · rcases hpm with rfl | rfl
          · exact .inl (Re.mem_lit.2 rfl)
          · exact .inr (Re.mem_lit.2 rfl)
        · intro c hc
          exact dot_of_ne (by rintro rfl; exact hline (by simp [hc]))
    obtain ⟨t, ht⟩ := hmem
    cases hf : pmRe (N ++ pm ++ U) with
    | nil => rw [hf] at ht; simp at ht
    | cons m l => exact ⟨m.1, by unfold Re.first; rw [hf]; rfl⟩
  obtain ⟨⟨N, U⟩, hm⟩ := hsome
  unfold afterFactor at h ⊢
  rw [hm] at h ⊢
  cases hv : (toFloat N : PyRes FNum) with
  | error e => simp only [hv] at h; cases h
  | ok v' =>
    cases hw : (toFloat U : PyRes FNum) with
    | error e => simp only [hv, hw] at h; cases h
    | ok w' =>
      simp only [hv, hw] at h ⊢
      have h1 : ∀ y : FNum, y.scale 1 = y := by
        intro y
        cases y <;> simp [FNum.scale]
      have h' : checked (v'.scale 1, w'.scale 1) = .ok (v, w) := h
      rw [h1, h1] at h'
      unfold checked at h'
      split_ifs at h' with hneg
      obtain ⟨rfl, rfl⟩ := Prod.mk.inj (Except.ok.inj h')
      show checked (v'.scale (10 ^ n), w'.scale (10 ^ n)) = _
      unfold checked
      rw [if_neg]
      intro hneg'
      refine hneg ?_
      revert hneg'
      show ((w'.scale (10 ^ n)).isNeg && !(w'.scale (10 ^ n)).isInfinite) = true → (w'.isNeg && !w'.isInfinite) = true
      cases w' with
      | fin q =>
        simp only [FNum.scale, FNum.isNeg, FNum.isInfinite, Bool.not_false, Bool.and_true, decide_eq_true_eq]
        intro h
        by_contra hq
        exact absurd h (not_lt.2 (mul_nonneg (not_lt.1 hq) hpos.le))
      | inf s => exact _root_.id
      | nan => exact _root_.id

/-- `(-3.1415 ± 0.0001)e+02`, an example of the documentation. -/
example : (ufloatFromstr "(-3.1415 +/- 0.0001)e+02".toList : PyRes (FNum × FNum)) =
    .ok (.fin (-31415 / 100), .fin (1 / 100)) := by decide +kernel

/-- `(12.3 ± 5.0) × 10⁻¹²`, which meets the hypotheses of `C46_factored_exponent_partial`. -/
example : (ufloatFromstr "(12.3 ± 5.0) × 10⁻¹²".toList : PyRes (FNum × FNum)) =
    .ok (.fin (123 / 10 * 10 ^ (-12 : ℤ)), .fin (5 * 10 ^ (-12 : ℤ))) := by
  have h := C46_factored_exponent_partial [] "12.3 ".toList ['±'] " 5.0".toList " × 10⁻¹²".toList [] _ _ (-12)
    (by simp [IsSpaces]) (by simp [IsSpaces])
    (.plain [] [] [' '] ⟨"12".toList, some "3".toList, by decide +kernel, by decide +kernel, by decide +kernel⟩
      (by simp [IsBlanks]) (by simp [IsBlanks]) (.inl rfl)) (.inr rfl)
    (.plain [' '] [] [] ⟨"5".toList, some "0".toList, by decide +kernel, by decide +kernel, by decide +kernel⟩
      (by simp [IsBlanks]) (by simp [IsBlanks]) (.inl rfl))
    (.times [' '] [' '] "⁻¹²".toList (-12) (by decide +kernel) (by decide +kernel)
      ⟨['-'], "12".toList, .inr (.inr rfl), by decide +kernel, by decide +kernel, .inr (by decide +kernel), by decide +kernel⟩)
    (by norm_num) (by decide +kernel)
  refine Eq.trans (Eq.trans ?_ h) ?_
  · congr 1
  · decide +kernel

/-- **C46 fails** for the shorthand notation between parentheses: the factored exponent is silently ignored. -/
theorem C46_fails_shorthand :
    (ufloatFromstr "(1.23(4))e5".toList : PyRes (FNum × FNum)) = ufloatFromstr "1.23(4)".toList ∧
      (ufloatFromstr "1.23(4)".toList : PyRes (FNum × FNum)) = .ok (.fin (123 / 100), .fin (4 / 100)) := by
  decide +kernel

/-- … and this is so for every number in shorthand notation and every exponent. -/
theorem C46_exponent_ignored (a sg x y b : Str) (d : Decimal) (u : ShortUncert) (m n : ℤ) (ha : IsSpaces a) (hb : IsSpaces b)
    (hsg : IsSign sg) (hx : ExpPart x m) (hline : '\n' ∉ x) (hy : ExpPart y n) (hy0 : y ≠ []) (hn : n ≤ 308) :
    (ufloatFromstr (a ++ ('(' :: (sg ++ (d.text ++ (u.text ++ x)) ++ ')' :: y)) ++ b) : PyRes (FNum × FNum)) =
      ufloatFromstr (sg ++ (d.text ++ (u.text ++ x))) := by
  have hbody : '\n' ∉ sg ++ (d.text ++ (u.text ++ x)) := by
    rw [← List.append_assoc]
    intro h
    rcases List.mem_append.1 h with h | h
    · exact absurd (signed_decimal_char hsg d _ h).1 (by decide)
    · rcases List.mem_append.1 h with h | h
      · revert h
        have hD : ∀ {ds : Str}, IsDigits ds → ∀ c, isDigit c = false → c ∉ ds := by
          intro ds h c hc hm
          rw [h c hm] at hc
          exact absurd hc (by decide)
        cases u with
        | implicit => simp [ShortUncert.text]
        | units ds hds hne => simp [ShortUncert.text, hD hds _ (show isDigit '\n' = false from rfl)]
        | explicit d h =>
          have : '\n' ∉ d.text := by
            intro h
            rcases d.chars _ h with h | h <;> exact absurd h (by decide)
          simp [ShortUncert.text, this]
        | nan upper => cases upper <;> decide +kernel
        | inf upper => cases upper <;> decide +kernel
      · exact hline h
  have hno : ∀ c, isDelim c = true → c ∉ u.text → c ∉ x → c ∉ sg ++ (d.text ++ (u.text ++ x)) := by
    intro c hc hcu hcx hm
    rw [← List.append_assoc] at hm
    rcases List.mem_append.1 hm with hm | hm
    · rw [(signed_decimal_char hsg d c hm).2] at hc
      exact absurd hc (by decide)
    · rcases List.mem_append.1 hm with hm | hm
      · exact hcu hm
      · exact hcx hm
  have h2 : (ufloatFromstr ([] ++ (sg ++ (d.text ++ (u.text ++ x))) ++ []) : PyRes (FNum × FNum)) = _ :=
    fromstr_paren (by simp [IsSpaces]) (by simp [IsSpaces]) hsg d u hx
  rw [List.nil_append, List.append_nil] at h2
  rw [h2, fromstr_eq, strip_factor ha hb hy hy0, strToNumber_factor hbody hy hy0 hn]
  unfold afterFactor
  rw [pmRe_none (hno _ (by decide) u.no_pm.1 hx.no_pm.1) (hno _ (by decide) u.no_pm.2 hx.no_pm.2.1)]
  rfl

end Unc
