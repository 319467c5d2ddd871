import Verif.Props.C76_Special

/-!
# C76: formatting with floating-point arithmetic, uncertainty of an infinite or NaN nominal value

The shorthand notation, and the general formats.
-/

set_option autoImplicit false

namespace Unc

/-- The mantissa of the uncertainty is in the range where the shorthand notation can be calculated. -/
theorem FlOps.Sound.mant_range {f : FlOps} (hf : f.Sound) {E : Option ℤ} (hE : ∀ e ∈ E, -115 ≤ e ∧ e ≤ 115) {S' : ℚ}
    (b1 : (10 : ℚ) ^ (-101 : ℤ) ≤ S') (b2 : S' ≤ (10 : ℚ) ^ (104 : ℤ)) :
    (10 : ℚ) ^ (-230 : ℤ) ≤ f.mant E S' ∧ f.mant E S' ≤ (10 : ℚ) ^ (230 : ℤ) := by
  have hS'0 : 0 < S' := (ten_pos _).trans_le b1
  have mS := hf.mant_near (q := S') hE (.inr (by
    rw [abs_of_pos hS'0]
    exact ⟨(ten_le_iff.2 (by norm_num)).trans b1, b2.trans (ten_le_iff.2 (by norm_num))⟩))
  rw [abs_of_pos hS'0] at mS
  have hEp := ten_pos (E.getD 0)
  have hEu : E.getD 0 ≤ 115 ∧ -115 ≤ E.getD 0 := by
    cases hE0 : E with
    | none => simp
    | some e => have := hE e (by rw [hE0]; exact rfl); simp; omega
  rw [abs_le] at mS
  constructor
  · have k1 : (10 : ℚ) ^ (-102 : ℤ) ≤ f.mant E S' * (10 : ℚ) ^ E.getD 0 :=
      (ten_half (show (-102 : ℤ) < -101 by norm_num)).trans ((div_le_div_of_nonneg_right b1 (by norm_num)).trans (by linarith [mS.1]))
    have k2 : (10 : ℚ) ^ (-230 : ℤ) * (10 : ℚ) ^ E.getD 0 ≤ f.mant E S' * (10 : ℚ) ^ E.getD 0 := by
      rw [← ten_add]
      exact (ten_le_iff.2 (by omega)).trans k1
    exact le_of_mul_le_mul_right k2 hEp
  · have k1 : f.mant E S' * (10 : ℚ) ^ E.getD 0 ≤ (10 : ℚ) ^ (105 : ℤ) :=
      le_trans (by linarith [mS.2] : _ ≤ 2 * S') ((mul_le_mul_of_nonneg_left b2 (by norm_num)).trans (ten_double (by norm_num)))
    have k2 : f.mant E S' * (10 : ℚ) ^ E.getD 0 ≤ (10 : ℚ) ^ (230 : ℤ) * (10 : ℚ) ^ E.getD 0 := by
      rw [← ten_add]
      exact k1.trans (ten_le_iff.2 (by omega))
    exact le_of_mul_le_mul_right k2 hEp

/-- The precision that applies when only the uncertainty is a number. -/
theorem FmtParts.Valid.alone_prec {p : FmtParts} (hv : p.Valid) (pres : Option Char) {d : Str} (hd : (p.alone pres).prec = some d) {n : ℕ}
    (hn : 12 ≤ n) (h : ∀ d, p.prec = some d → digitsVal d ≤ n) : digitsVal d ≤ n := by
  unfold FmtParts.alone at hd
  split_ifs at hd with hu
  · obtain ⟨d', hd', hdv, -⟩ := FlOps.withPrec_digits hv pres
    rw [hd] at hd'
    obtain rfl := Option.some.inj hd'
    rw [hdv]
    cases hp : p.prec with
    | none => simp only [Option.getD_none, ne_eq, not_true_eq_false, if_false]; split_ifs <;> omega
    | some d' =>
      have := h d' hp
      simp only [Option.getD_some]
      split_ifs <;> omega
  · exact h d hd

/-- **C76**, nominal value infinite or NaN, shorthand notation, all the formats: the uncertainty between the parentheses is the
stored one (or its rounding up by the rules of the Particle Data Group), up to half a unit of its last digit. -/
theorem C76_uncertainty_shorthand (f : FlOps) (hf : f.Sound) (x : FNum) (hx : x = .nan ∨ ∃ b, x = .inf b) (s : ℚ) (hs : 0 < s)
    (hsr : InRange s) (spec out : Str) (p : FmtParts) (hp : parseSpec spec = some p) (hS : 'S' ∈ p.options)
    (hd : ∀ d, p.prec = some d → digitsVal d ≤ 50) (h : f.formatU x (.fin s) spec = .ok out) :
    ∃ (U X : Str) (u : Shown) (s' : ℚ), UncertaintyText out U X ∧ Bracket u.places U u ∧ OptExp X u.exp ∧
      SameOrPdgFl (s * percentFactor (decide (p.type = ['%']))) s' ∧ u.NearFl s' := by
  have hx' : x.isInfinite = true := by
    rcases hx with rfl | ⟨b, rfl⟩ <;> rfl
  obtain ⟨p', plan, hp', hv, hplan, hout⟩ := f.format_ok h
  obtain rfl : p = p' := by rw [hp] at hp'; injection hp'
  obtain ⟨l, S', T, hlim, hE, hEr, hnom, herr, hpos, hprec, b1, b2, t1, t2, t3⟩ := hf.plan_nonfin hv hx' hs hsr hplan
  obtain ⟨r0, r1, r2, r3, r4⟩ := hf.scaled_range p hs hsr
  have hfac : percentFactor (decide (p.type = ['%'])) = scaleOf p := by
    unfold percentFactor scaleOf
    simp
  have hS' : 'S' ∈ optionsOf p := (mem_optionsOf p (by decide)).2 hS
  unfold FlOps.formatNum at hout
  rw [if_pos hS'] at hout
  obtain ⟨z, Ns, U, -, -, -, hU, hpad⟩ := f.formatShorthand_ok hv hout
  obtain ⟨c, i, j, rfl⟩ := hpad.rep
  rw [herr] at hU
  simp only [FlOps.uncertStr, if_neg hpos.ne'] at hU
  have hlow : -160 ≤ l := by
    have hmax : max |0| (f.scaled p s) = f.scaled p s := by rw [abs_zero]; exact max_eq_right r0.le
    cases hlim with
    | digits d hd' hu hpos =>
      have := hv.alone_prec _ hd' (by norm_num : 12 ≤ 50) hd
      have := hf.signif_ge (a := -100) (b := 103) (by norm_num) (by norm_num) r1 r2 (digitsVal d)
      omega
    | pdg hd' =>
      have hn : (f.pdgPrecision (f.scaled p s)).1 ≤ 2 := by
        unfold FlOps.pdgPrecision
        simp only []
        split_ifs <;> simp
      have := hf.signif_ge (a := -101) (b := 104) (by norm_num) (by norm_num) b1 b2 (f.pdgPrecision (f.scaled p s)).1
      omega
    | fixed d hd' hu hff =>
      have := hv.alone_prec _ hd' (by norm_num : 12 ≤ 50) hd
      omega
    | float d hd' hu hff n hn =>
      have := hv.alone_prec _ hd' (by norm_num : 12 ≤ 50) hd
      rw [hmax]
      have := hf.signif_ge (a := -100) (b := 103) (by norm_num) (by norm_num) r1 r2 n
      have : n ≤ 51 := by
        rw [hn]
        split_ifs <;> omega
      omega
  have hEu : plan.commonExp.getD 0 ≤ 110 := by
    cases hE0 : plan.commonExp with
    | none => simp
    | some e =>
      have hmax : max |0| (f.scaled p s) = f.scaled p s := by rw [abs_zero]; exact max_eq_right r0.le
      have := hf.exponent_range (a := -100) (b := 103) (by norm_num) (by norm_num) (by norm_num) (by norm_num) (by rw [hmax]; exact r1)
        (by rw [hmax]; exact r2) hE e (by rw [hE0]; exact rfl)
      simp
      omega
  obtain ⟨m1, m2⟩ := hf.mant_range hEr b1 b2
  obtain ⟨k, hB, hk1, -⟩ := hf.shorthand_form m1 m2 (prec := plan.prec) (by omega) hU
  refine ⟨U, _, ⟨plan.prec, (k : ℚ) / 10 ^ plan.prec, plan.commonExp⟩, T, .shorthand _ _ _ _ _ _ _ (percentStr_sign _),
    hB.bracket plan.commonExp, expStr_opt plan.commonExp (mainType_f p) (optionsOf p), by rw [hfac]; exact t1, ?_⟩
  have hS'0 : 0 < S' := (ten_pos _).trans_le b1
  have mS := hf.mant_near (q := S') hEr (.inr (by
    rw [abs_of_pos hS'0]
    exact ⟨(ten_le_iff.2 (by norm_num)).trans b1, b2.trans (ten_le_iff.2 (by norm_num))⟩))
  refine FlOps.Sound.near_of S' T _ _ plan.commonExp _ (by rw [abs_of_pos t2]; exact t3) mS ?_
  rw [abs_of_pos hpos]
  have hpp : (0 : ℚ) < 10 ^ plan.prec := by positivity
  generalize (10 : ℚ) ^ plan.prec = W at *
  generalize f.mant plan.commonExp S' = m at *
  have e : (k : ℚ) / W - m = (k - m * W) * W⁻¹ := by field_simp
  rw [e, abs_mul, abs_of_pos (inv_pos.2 hpp)]
  have := mul_le_mul_of_nonneg_right hk1 (inv_pos.2 hpp).le
  refine this.trans (le_of_eq ?_)
  field_simp

/-- **C76**, formats `g`, `G` and no type, nominal value infinite or NaN, for at most 12 digits (given, or the default ones of a
float): the exponent is chosen from the uncertainty rounded to the number of digits of the format, as in C42; without exponent, in the
± notation, the uncertainty is formatted as the float itself (with the precision as a width, see C44). -/
theorem C76_uncertainty_g (f : FlOps) (hf : f.Sound) (x : FNum) (hx : x = .nan ∨ ∃ b, x = .inf b) (s : ℚ) (hs : 0 < s)
    (hsr : InRange s) (spec out : Str) (p : FmtParts) (hp : parseSpec spec = some p)
    (ht : p.type = [] ∨ p.type = ['g'] ∨ p.type = ['G']) (h12 : generalDigits p ≤ 12) (hu : p.prec ≠ none ∨ p.uncertPrec = [])
    (h : f.formatU x (.fin s) spec = .ok out) :
    ∃ U X, ∃ m l e : ℤ, UncertaintyText out U X ∧ Rounds s l m ∧ HasDigits m (generalDigits p) ∧
      HasExponent (m * (10 : ℚ) ^ l) e ∧ OptExp X (generalExp e l) ∧
      (X = [] → p.width = [] → 'S' ∉ p.options → pyFormat (.fin s) (p.comma ++ gSuffix p) = .ok U) := by
  have hx' : x.isInfinite = true := by
    rcases hx with rfl | ⟨b, rfl⟩ <;> rfl
  obtain ⟨p', plan, hp', hv, hplan, hout⟩ := f.format_ok h
  obtain rfl : p = p' := by rw [hp] at hp'; injection hp'
  obtain ⟨l, S', T, hlim, hE, hEr, hnom, herr, hpos, hprec, b1, b2, t1, t2, t3⟩ := hf.plan_nonfin hv hx' hs hsr hplan
  obtain ⟨r0, r1, r2, r3, r4⟩ := hf.scaled_range p hs hsr
  obtain ⟨q1, q2, q3⟩ := pres_g ht
  have htp : p.type ≠ ['%'] := by rcases ht with h | h | h <;> rw [h] <;> decide
  have hsx : f.scaled p s = s := by unfold FlOps.scaled; rw [if_neg htp]
  rw [hsx] at hlim hE r0 r1 r2
  have hmax : max |(0 : ℚ)| s = s := by rw [abs_zero]; exact max_eq_right r0.le
  have hg1 : 1 ≤ generalDigits p := by rw [← floatDigits_general hv ht]; exact floatDigits_pos _ _
  have hls : l = f.signifDgtToLimit s (generalDigits p) ∧ S' = s := by
    rw [← floatDigits_general hv ht]
    obtain ⟨d, hd, hdv, hun⟩ := FlOps.withPrec_digits hv (presOf p)
    have key : ∀ d', (p.alone (presOf p)).prec = some d' → digitsVal d' = digitsVal d := by
      intro d' hd'
      unfold FmtParts.alone at hd'
      split_ifs at hd' with hu0
      · rw [hd] at hd'; rw [Option.some.inj hd']
      · rw [hdv, hd']
        obtain ⟨hne, -⟩ := hv.prec d' hd'
        simp [hne]
    cases hlim with
    | digits d' hd' hu' hpos' =>
      refine ⟨?_, rfl⟩
      rw [key d' hd'] at hpos' ⊢
      unfold floatDigits
      simp only [q1, if_false, ← hdv]
      rw [if_neg (by omega)]
    | pdg hd' =>
      exfalso
      unfold FmtParts.alone at hd'
      split_ifs at hd' with hu0
      · rw [hd] at hd'; cases hd'
      · exact hu.elim (fun h => h hd') hu0
    | fixed d' hd' hu' hff => exact absurd hff q2
    | float d' hd' hu' hff n hn =>
      refine ⟨?_, rfl⟩
      rw [hmax, hn, key d' hd']
      unfold floatDigits
      simp only [← hdv]
  obtain ⟨hl, rfl⟩ := hls
  have hl0 : -250 ≤ l := by
    have := hf.signif_ge (a := -100) (b := 103) (by norm_num) (by norm_num) r1 r2 (generalDigits p)
    rw [← hl] at this
    omega
  rw [hf.signif_eq ((ten_le_iff.2 (by norm_num)).trans r1) (r2.trans (ten_le_iff.2 (by norm_num))) hg1 h12] at hl
  have hdig : HasDigits (rhe (S' / (10 : ℚ) ^ l)) (generalDigits p) := by
    rw [hl]
    exact signif_hasDigits r0 hg1
  have hr : 1 ≤ rhe (S' / (10 : ℚ) ^ l) := by
    rw [hl]
    have := (signif_pos r0 hg1).1
    have h2 : (1 : ℤ) ≤ 10 ^ (generalDigits p - 1) := one_le_pow₀ (by norm_num)
    omega
  have hr2 : rhe (S' / (10 : ℚ) ^ l) ≤ 10 ^ 12 := by
    have h1 := hdig.2
    have h2 : (10 : ℕ) ^ generalDigits p ≤ 10 ^ 12 := Nat.pow_le_pow_right (by norm_num) h12
    have h3 : (rhe (S' / (10 : ℚ) ^ l)).natAbs ≤ 10 ^ 12 := by omega
    have h4 := Int.le_natAbs (a := rhe (S' / (10 : ℚ) ^ l))
    refine h4.trans ?_
    exact_mod_cast h3
  rw [← hmax] at hr hr2
  rw [hf.exponent_eq hl0 (by rw [hmax]; exact r2.trans (ten_le_iff.2 (by norm_num))) hr hr2, (exponent_cases q2 hr).1] at hE
  simp only [q1, false_or] at hE
  rw [hmax] at hE hr
  have hX := expStr_opt plan.commonExp (mainType_f p) (optionsOf p)
  have fin : ∀ U, UncertaintyText out U (expStr plan.commonExp (mainType p) (optionsOf p)) →
      (expStr plan.commonExp (mainType p) (optionsOf p) = [] → p.width = [] → 'S' ∉ p.options →
        pyFormat (.fin S') (p.comma ++ gSuffix p) = .ok U) →
      ∃ U X, ∃ m l e : ℤ, UncertaintyText out U X ∧ Rounds S' l m ∧ HasDigits m (generalDigits p) ∧
        HasExponent (m * (10 : ℚ) ^ l) e ∧ OptExp X (generalExp e l) ∧
        (X = [] → p.width = [] → 'S' ∉ p.options → pyFormat (.fin S') (p.comma ++ gSuffix p) = .ok U) := fun U hU h2 =>
    ⟨U, _, _, l, _, hU, pyRound_rounds _ _, hdig, (ref_exponent hr).1, by unfold generalExp; rw [← hE]; exact hX, h2⟩
  have hspe : specialError plan.errorMain = false := by rw [herr]; simp [specialError, FNum.truthy, FNum.isInfinite, hpos.ne']
  have htr : plan.errorMain.truthy = true := by rw [herr]; simp [FNum.truthy, hpos.ne']
  have hpe : '%' ∈ optionsOf p → plan.commonExp = none := fun h => absurd ((percent_mem hv).1 h) htp
  unfold FlOps.formatNum at hout
  by_cases hS : 'S' ∈ optionsOf p
  · rw [if_pos hS] at hout
    obtain ⟨z, Ns, U, -, -, -, -, hpad⟩ := f.formatShorthand_ok hv hout
    obtain ⟨c, i, j, rfl⟩ := hpad.rep
    exact fin U (.shorthand _ _ _ _ _ _ _ (percentStr_sign _)) fun _ _ h => absurd ((mem_optionsOf p (by decide)).1 hS) h
  · rw [if_neg hS] at hout
    obtain ⟨z, z', Ns, Es, A, B, hz, -, -, hEs, -, hB, rfl⟩ := formatPm_ok hv hout
    have hlat : latexErr (optionsOf p) plan.errorMain Es = Es := by rw [herr]; simp [latexErr]
    rw [hlat] at hB
    simp only [hspe, and_true] at hB
    refine fin Es (wrapPm_uncertainty hpe hB) fun hX0 hw _ => ?_
    have hE0 : plan.commonExp = none := by
      cases hE' : plan.commonExp with
      | none => rfl
      | some e =>
        rw [hE'] at hX
        exfalso
        obtain ⟨t, h1, h2⟩ : ∃ t : Str, t = [] ∧ ExpShown t e := ⟨_, by rw [← hE']; exact hX0, hX⟩
        cases h2 <;> simp at h1
    have hsuf : fmtSuffixE plan.nomMain plan.errorMain p plan.prec (mainType p) = gSuffix p := by
      simp [fmtSuffixE, htr, hnom, hx', q3]
    rw [hsuf, (hz (.inl hw)).2, ← prefix_comma hv, herr, hE0] at hEs
    simpa [FlOps.mant] using hEs

/-! ### Concrete cases -/

example : doubles.formatU .nan (.fin (FlOps.rnd64 (97 / 100))) "ueS".toList = .ok "nan(1.0)e+00".toList := by decide +kernel
example : doubles.formatU (.inf true) (.fin (FlOps.rnd64 (3 / 10))) "%S".toList = .ok "-inf(30.000000)%".toList := by decide +kernel
example : doubles.formatU .nan (.fin (FlOps.rnd64 (1234567 / 1))) "gS".toList = .ok "nan(1.23457)e+06".toList := by decide +kernel
example : doubles.formatU .nan (.fin (FlOps.rnd64 (3 / 10))) ",g".toList = .ok "nan+/-0.3".toList := by decide +kernel
example : doubles.formatU (.inf false) (.fin (FlOps.rnd64 (1234567 / 1))) ".3ug".toList = .ok "(inf+/-1.23457)e+06".toList := by decide +kernel
example : ∃ p, parseSpec ".3ug".toList = some p ∧ p.type = ['g'] ∧ generalDigits p = 3 ∧ p.prec ≠ none := ⟨_, rfl, by decide +kernel⟩

end Unc
