import Verif.Lemmas.FloatParse
import Verif.Py.B64Exact

/-!
# C77: parsing with floating-point arithmetic

`ufloatFromstr` for the floats `Fl f`: `float()` gives the float nearest to the decimal number, and the multiplications and
divisions of the parser are rounded.
-/

set_option autoImplicit false

namespace Unc

/-- **C77**: `X±S`. -/
theorem C77_plus_minus (f : FlOps) (hf : f.Sound) (a N pm U b : Str) (x y : FNum) (i j : Option ℤ) (ha : IsSpaces a)
    (hb : IsSpaces b) (hN : WrittenNum N x i) (hpm : IsPm pm) (hU : WrittenNum U y j) (hx : Reach x i 0) (hy : Reach y j 0)
    (hneg : y.isNeg = true → y.isInfinite = true) :
    ∃ v w : FNum, (ufloatFromstr (a ++ (N ++ pm ++ U) ++ b) : PyRes (Fl f × Fl f)) = .ok (v, w) ∧
      ReadAs v (x.scale (10 ^ i.getD 0)) ∧ ReadAs w (y.scale (10 ^ j.getD 0)) := by
  obtain ⟨v, w, h1, h2, h3, -, -⟩ := readBoth_fl hf (X := []) (fun _ => rfl) hx hy hneg
  rw [zpow_zero, mul_one] at h2 h3
  refine ⟨v, w, ?_, h2, h3⟩
  rw [fromstrG_pm (ofStr_fl f) ha hb hN hU hpm]
  exact h1

/-- **C77**: `(X±S)`, and `(X±S)e…` or `(X±S)×10…`. -/
theorem C77_grouped (f : FlOps) (hf : f.Sound) (a N pm U X b : Str) (x y : FNum) (i j : Option ℤ) (n : ℤ) (ha : IsSpaces a)
    (hb : IsSpaces b) (hN : WrittenNum N x i) (hpm : IsPm pm) (hU : WrittenNum U y j) (hX : ExpPart X n) (hx : Reach x i n)
    (hy : Reach y j n) (hneg : y.isNeg = true → y.isInfinite = true) :
    ∃ v w : FNum, (ufloatFromstr (a ++ ('(' :: (N ++ pm ++ U ++ ')' :: X)) ++ b) : PyRes (Fl f × Fl f)) = .ok (v, w) ∧
      ReadAs v (x.scale (10 ^ i.getD 0 * 10 ^ n)) ∧ ReadAs w (y.scale (10 ^ j.getD 0 * 10 ^ n)) := by
  obtain ⟨v, w, h1, h2, h3, -, -⟩ := readBoth_fl (X := X) hf hX.zero hx hy hneg
  refine ⟨v, w, ?_, h2, h3⟩
  rw [fromstrG_grouped (ofStr_fl f) ha hb hN hU hpm hX]
  exact h1

/-- **C77**: the shorthand notation. -/
theorem C77_shorthand (f : FlOps) (hf : f.Sound) (a sg X b : Str) (d : Decimal) (u : ShortUncert) (y : FNum) (n : ℤ)
    (ha : IsSpaces a) (hb : IsSpaces b) (hsg : IsSign sg) (hX : ExpPart X n)
    (hu : u.value ((10 : ℚ) ^ (-(d.places : ℤ))) = y) (hx : Reach (.fin d.value) none n) (hy : Reach y none n)
    (hun : u.InUnits → d.places ≤ 300 ∧ Reach y (some d.places) 0) :
    ∃ v w : FNum, (ufloatFromstr (a ++ (sg ++ (d.text ++ (u.text ++ X))) ++ b) : PyRes (Fl f × Fl f)) = .ok (v, w) ∧
      ReadAs v (.fin (signVal sg * d.value * 10 ^ n)) ∧ ReadAs w (y.scale (10 ^ n)) := by
  obtain ⟨-, n1, n2, x2⟩ := hx
  obtain ⟨-, -, -, y2⟩ := hy
  simp only [Option.getD_none, zpow_zero, mul_one] at x2 y2
  obtain ⟨k, hk, -, hkm⟩ := factor_fl hf (X := X) hX.zero n1 n2
  obtain ⟨w, hw, hw2⟩ := readShort_fl hf hu (fun v h => (y2 v h).1) (fun h => ⟨(hun h).1, fun v hv => by
    have := ((hun h).2.2.2.2 v hv).2.1
    simpa using this⟩)
  have hsv : ∀ r : ℚ, Ranged r → Ranged (signVal sg * r) := by
    intro r hr
    rcases hsg with rfl | rfl | rfl
    · rwa [show signVal [] = 1 from rfl, one_mul]
    · rwa [show signVal ['+'] = 1 from rfl, one_mul]
    · rw [show signVal ['-'] = -1 from rfl, neg_one_mul]
      unfold Ranged at *
      rwa [neg_eq_zero, abs_neg]
  have h1 := approx_nearest hf (x := .fin (signVal sg * d.value)) (fun v hv => by
    injection hv with hv
    rw [← hv]
    exact hsv _ (x2 _ rfl).1)
  have h2 := hkm _ _ _ h1 (by norm_num) (by norm_num) (fun v hv => by
    injection hv with hv
    rw [← hv, mul_assoc]
    exact hsv _ (x2 _ rfl).2.2)
  have h3 := hkm _ _ _ hw2 (by norm_num) (by norm_num) (fun v hv => (y2 v hv).2.2)
  have hy0 : y.isNeg = true → y.isInfinite = true := by
    rw [← hu]
    exact u.not_neg d.places
  refine ⟨_, _, ?_, h2.readAs (by norm_num), h3.readAs (by norm_num)⟩
  rw [fromstrG_paren (ofStr_fl f) ha hb hsg d u hX, hk]
  show ((readShort f.nearest d.places u).bind fun w => _) = _
  rw [hw]
  exact checked_fl h3 (by norm_num) (isNeg_scale (ten_pos n) hy0)

theorem double_nearest (log : ℚ → ℤ) : (FlOps.double log).Nearest where
  idem := FlOps.rnd64_idem
  nonneg _ := FlOps.rnd64_nonneg
  nat _ := FlOps.rnd64_nat
  ten _ := FlOps.rnd64_ten

/-- **C77**: in `X±S` or `(X±S)` without a factor `×10…`, the doubles nearest to the numbers written are read (exponents
like in `1.2e3` do not matter). -/
theorem C77_plus_minus_nearest (log : ℚ → ℤ) (a N pm U b : Str) (x y : FNum) (ha : IsSpaces a) (hb : IsSpaces b)
    (hN : WrittenNum N x none) (hpm : IsPm pm) (hU : WrittenNum U y none) (hneg : y.isNeg = true → y.isInfinite = true) :
    (ufloatFromstr (a ++ (N ++ pm ++ U) ++ b) : PyRes (Fl (FlOps.double log) × Fl (FlOps.double log))) =
      .ok ((FlOps.double log).nearest x, (FlOps.double log).nearest y) ∧
    (ufloatFromstr (a ++ ('(' :: (N ++ pm ++ U ++ [')'])) ++ b) : PyRes (Fl (FlOps.double log) × Fl (FlOps.double log))) =
      .ok ((FlOps.double log).nearest x, (FlOps.double log).nearest y) :=
  ⟨fromstr_pm_nearest (double_nearest log) ha hb hN hpm hU hneg, fromstr_grouped_nearest (double_nearest log) ha hb hN hpm hU hneg⟩

/-- **C77**: in the shorthand notation without an exponent, the doubles nearest to the numbers written are read, for at most
22 digits after the decimal point and an uncertainty of at most 2⁵³ units (or an explicit, infinite or NaN uncertainty). -/
theorem C77_shorthand_nearest (log : ℚ → ℤ) (a sg b : Str) (d : Decimal) (u : ShortUncert) (y : FNum) (ha : IsSpaces a)
    (hb : IsSpaces b) (hsg : IsSign sg) (hu : u.value ((10 : ℚ) ^ (-(d.places : ℤ))) = y)
    (hun : u.InUnits → d.places ≤ 22 ∧ ∀ w, y = .fin w → w ≤ 2 ^ 53 * (10 : ℚ) ^ (-(d.places : ℤ))) :
    (ufloatFromstr (a ++ (sg ++ (d.text ++ u.text)) ++ b) : PyRes (Fl (FlOps.double log) × Fl (FlOps.double log))) =
      .ok ((FlOps.double log).nearest (.fin (signVal sg * d.value)), (FlOps.double log).nearest y) := by
  subst hu
  exact fromstr_short_nearest (double_nearest log) d u ha hb hsg hun

/-- The number `1.1`. -/
def oneOne : Decimal := ⟨['1'], some ['1'], by decide, by decide, by decide⟩

/-- With an exponent, the double that is read is not always the nearest: `1.1(1)e2` is read as 110.00000000000001. -/
theorem C77_exponent_not_nearest (log : ℚ → ℤ) :
    (ufloatFromstr "1.1(1)e2".toList : PyRes (Fl (FlOps.double log) × Fl (FlOps.double log))) =
      .ok ((FNum.fin (110 + 1 / 2 ^ 46) : FNum), (FNum.fin 10 : FNum)) ∧ FlOps.rnd64 110 = 110 := by
  refine ⟨?_, by decide +kernel⟩
  have hd : IsDigits ['1'] := by decide
  have hX : ExpPart "e2".toList 2 :=
    .e "2".toList 2 ⟨[], "2".toList, .inl rfl, by decide, by decide, .inl rfl, rfl⟩
  have e1 : FlOps.rnd64 (FlOps.rnd64 (signVal [] * oneOne.value) *
      FlOps.rnd64 ((10 : ℚ) ^ (2 : ℤ))) = 110 + 1 / 2 ^ 46 := by decide +kernel
  have e2 : FlOps.rnd64 (FlOps.rnd64 (FlOps.rnd64 ((digitsVal ['1'] : ℤ) : ℚ) / FlOps.rnd64 ((10 : ℚ) ^ ((1 : ℕ) : ℤ))) *
      FlOps.rnd64 ((10 : ℚ) ^ (2 : ℤ))) = 10 := by decide +kernel
  have e3 : FlOps.rnd64 ((10 : ℚ) ^ ((1 : ℕ) : ℤ)) ≠ 0 := by decide +kernel
  refine (fromstr_units_exp (f := FlOps.double log) (a := []) (b := []) (sg := []) oneOne
    hd (by decide) (by simp [IsSpaces]) (by simp [IsSpaces]) (.inl rfl) hX (by decide) (by norm_num) (by decide) e3 ?_).trans ?_
  · exact le_of_le_of_eq (by norm_num) e2.symm
  · exact congrArg₂ (fun v w => Except.ok ((FNum.fin v : FNum), (FNum.fin w : FNum))) e1 e2

/-! ### The hypotheses are met -/

example : WrittenNum " -1.25e-3 ".toList (.fin (-1 * (125 / 100) * 10 ^ (-3 : ℤ))) none := by
  have h := WrittenNum.exp [' '] ['-'] [' '] ⟨['1'], some "25".toList, by decide, by decide, by decide⟩ (by decide) (by decide)
    (.inr (.inr rfl)) 'e' (.inl rfl) "-3".toList (-3) ⟨['-'], ['3'], .inr (.inr rfl), by decide, by decide, rfl, rfl⟩
  have e : (⟨['1'], some "25".toList, by decide, by decide, by decide⟩ : Decimal).value = 125 / 100 := by decide +kernel
  rw [e] at h
  exact h
example : Ranged (-1 * (125 / 100) * 10 ^ (-3 : ℤ)) := .inr (by decide +kernel)
example : WrittenNum "3.5×10²".toList (.fin (1 * (35 / 10))) (some 2) := by
  have h := WrittenNum.times [] [] [] ⟨['3'], some ['5'], by decide, by decide, by decide⟩ (by decide) (by decide) (.inl rfl) [] []
    "²".toList (by decide) (by decide) 2 ⟨[], ['2'], .inl rfl, by decide, by decide, .inr rfl, rfl⟩ (by norm_num)
  have e : (⟨['3'], some ['5'], by decide, by decide, by decide⟩ : Decimal).value = 35 / 10 := by decide +kernel
  rw [e] at h
  exact h
example : Reach (.fin (1 * (35 / 10))) (some 2) 0 :=
  ⟨by simp, by norm_num, by norm_num, fun v hv => by injection hv with hv; subst hv; exact ⟨.inr (by decide +kernel), .inr (by decide +kernel), .inr (by decide +kernel)⟩⟩
example : ∃ log, (FlOps.double log).Sound := ⟨FlOps.logSharp, FlOps.sharp_sound⟩

end Unc
