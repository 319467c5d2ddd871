import Verif.Lemmas.FloatSpecial
import Verif.Props.C43_Special
import Verif.Props.C76_FloatFormat

/-!
# C76: formatting with floating-point arithmetic when one of the values is not finite or the uncertainty is zero
-/

set_option autoImplicit false

namespace Unc

/-- A value that is infinite, NaN, or in the range. -/
def FNum.InRange (x : FNum) : Prop := ∀ q, x = .fin q → Unc.InRange q

theorem FlOps.Sound.specialPlan {f : FlOps} (hf : f.Sound) {p : FmtParts} (hv : p.Valid) {x s : FNum} (hx : x.InRange) (hsr : s.InRange)
    (hs : ∀ q, s = .fin q → 0 ≤ q) {plan : Plan} (h : f.formatPlan p x s = .ok plan) : SpecialPlan x s plan := by
  obtain ⟨lo, S', pr, -, hE, hnom, -⟩ := f.formatPlan_ok hv h
  have n1 : x.isInfinite = true → plan.nomMain = x := by
    intro hx
    rw [hnom, f.scaledN_special p hx, f.mantN_special _ hx]
  have n2 : plan.nomMain.isInfinite = x.isInfinite := by rw [hnom, FlOps.mantN_isInfinite, FlOps.scaledN_isInfinite]
  have n3 : x.isInfinite = true → s.isInfinite = true → plan.commonExp = none := by
    intro h1 h2
    rw [hE, f.scaledN_special p h1, f.scaledN_special p h2]
    have : realValues x s = [] := by
      cases x with
      | fin q => cases h1
      | inf b => cases s with
        | fin q => cases h2
        | inf b => rfl
        | nan => rfl
      | nan => cases s with
        | fin q => cases h2
        | inf b => rfl
        | nan => rfl
    rw [this]
    unfold FlOps.commonExponent expRefValue
    simp
  cases hsp : specialError s with
  | true =>
    obtain ⟨-, h2, -⟩ := hf.plan_special hv hsp h
    exact ⟨n1, n2, fun _ => h2, by rw [h2], n3⟩
  | false =>
    have key : ∃ u, 0 < u ∧ plan.errorMain = .fin u := by
      cases s with
      | inf b => revert hsp; simp [specialError, FNum.isInfinite]
      | nan => revert hsp; simp [specialError, FNum.isInfinite]
      | fin q =>
        have h0 : q ≠ 0 := by
          rintro rfl
          revert hsp; simp [specialError, FNum.truthy, FNum.isInfinite]
        have hq : 0 < q := lt_of_le_of_ne (hs q rfl) (Ne.symm h0)
        have hqr := hsr q rfl
        cases hxi : x.isInfinite with
        | true =>
          obtain ⟨l, S', T, -, -, -, -, h5, h6, -⟩ := hf.plan_nonfin hv hxi hq hqr h
          exact ⟨_, h6, h5⟩
        | false =>
          cases x with
          | inf b => cases hxi
          | nan => cases hxi
          | fin a =>
            obtain ⟨r0, r1, r2, r3, r4⟩ := hf.scaled_range p hq hqr
            have hsh := fun l S' (hl : LimitFl f p (presOf p) (f.scaled p a) (f.scaled p q) l S') => hl.shown hf r3 r4 r1 r2
            obtain ⟨l, S', hl, e1, e2, e3, -⟩ := f.formatPlan_fin hv r0 (fun l S' hl => (ten_pos _).trans_le (hsh l S' hl).1) h
            obtain ⟨b1, b2, -⟩ := hsh l S' hl
            obtain ⟨w1, w2, w3, w4⟩ := float_range hf (hx a rfl) hq hqr p
            refine ⟨_, hf.mant_pos (hf.exponent_small e1 (r1.trans (le_max_right _ _)) (max_le w3 r2))
              ((ten_le_iff.2 (by norm_num)).trans b1) (b2.trans (ten_le_iff.2 (by norm_num))), e3⟩
    obtain ⟨u, hu, he⟩ := key
    refine ⟨n1, n2, fun h => absurd h (by rw [hsp]; decide), ?_, n3⟩
    rw [he, hsp]
    simp [specialError, FNum.truthy, FNum.isInfinite, hu.ne']

/-- **C76**, special values, ± notation: as for exact numbers (C64), infinite and NaN values are written in words, a zero
uncertainty is written 0, the exponent is only given to finite values, and the fields are laid out as requested. -/
theorem C76_special_pm (f : FlOps) (hf : f.Sound) (x s : FNum) (hx : x.InRange) (hsr : s.InRange) (hs : ∀ q, s = .fin q → 0 ≤ q)
    (hn : s ≠ .inf true) (spec out : Str) (p : FmtParts) (hp : parseSpec spec = some p) (hS : 'S' ∉ p.options)
    (hg : p.type = [] ∨ p.type = ['g'] ∨ p.type = ['G'] → p.prec = none)
    (h : f.formatU x s spec = .ok out) : SpecialPmLayout p x s out := by
  obtain ⟨p', plan, hp', hv, hplan, hout⟩ := f.format_ok h
  obtain rfl : p = p' := by rw [hp] at hp'; injection hp'
  have hg' : isGType p.type = true → p.prec = none := by
    intro h
    exact hg (by simpa [isGType, or_assoc] using h)
  have hS' : 'S' ∉ optionsOf p := fun h => hS ((mem_optionsOf p (by decide)).1 h)
  unfold FlOps.formatNum at hout
  rw [if_neg hS'] at hout
  exact (hf.specialPlan hv hx hsr hs hplan).pm hn hv hg' hout

/-- **C76**, special values, shorthand notation. -/
theorem C76_special_shorthand (f : FlOps) (hf : f.Sound) (x s : FNum) (hx : x.InRange) (hsr : s.InRange) (hs : ∀ q, s = .fin q → 0 ≤ q)
    (hn : s ≠ .inf true) (spec out : Str) (p : FmtParts) (hp : parseSpec spec = some p) (hS : 'S' ∈ p.options)
    (hg : p.type = [] ∨ p.type = ['g'] ∨ p.type = ['G'] → p.prec = none)
    (h : f.formatU x s spec = .ok out) : SpecialShorthandLayout p x s out := by
  obtain ⟨p', plan, hp', hv, hplan, hout⟩ := f.format_ok h
  obtain rfl : p = p' := by rw [hp] at hp'; injection hp'
  have hg' : isGType p.type = true → p.prec = none := by
    intro h
    exact hg (by simpa [isGType, or_assoc] using h)
  have hS' : 'S' ∈ optionsOf p := (mem_optionsOf p (by decide)).2 hS
  unfold FlOps.formatNum at hout
  rw [if_pos hS'] at hout
  obtain ⟨z, Ns, U, hzz, hwz, hN, hU, hA⟩ := f.formatShorthand_ok hv hout
  exact (hf.specialPlan hv hx hsr hs hplan).shorthand hn hv hg' hzz hwz hN
    (fun hsp => by rw [← f.uncertStr_of_special hsp]; exact hU) hA

/-- **C76**, zero uncertainty: whatever the nominal value and the format, it is printed as the integer 0. -/
theorem C76_zero (f : FlOps) (hf : f.Sound) (x : FNum) (spec out : Str) (h : f.formatU x (.fin 0) spec = .ok out) :
    ∃ p Z, parseSpec spec = some p ∧ BareUncertainty out Z ∧ IsZeroText Z ∧ (p.zero = [] → Z = ['0']) := by
  obtain ⟨p, plan, hp, hv, hplan, hout⟩ := f.format_ok h
  have hsp : specialError (.fin 0) = true := by decide +kernel
  obtain ⟨-, herr, -⟩ := hf.plan_special hv hsp hplan
  rw [herr] at hout
  refine ⟨p, ?_⟩
  unfold FlOps.formatNum at hout
  by_cases hS : 'S' ∈ optionsOf p
  · rw [if_pos hS] at hout
    obtain ⟨z, Ns, U, -, -, -, hU, hpad⟩ := f.formatShorthand_ok hv hout
    obtain ⟨c, i, j, rfl⟩ := hpad.rep
    obtain rfl : ['0'] = U := by
      simp only [FlOps.uncertStr, if_true] at hU
      injection hU
    exact ⟨['0'], hp, .shorthand _ _ _ _ _ _, ⟨by simp, by simp⟩, fun _ => rfl⟩
  · rw [if_neg hS] at hout
    obtain ⟨z, z', Ns, Es, A, B, hz, -, -, hE, -, hB, rfl⟩ := formatPm_ok hv hout
    have hsx : fmtSuffixE plan.nomMain (.fin 0) p plan.prec (mainType p) = fixedSuffix 0 (mainType p) := by
      have h0 : natStr 0 = ['0'] := by decide +kernel
      simp [fmtSuffixE, FNum.truthy, fixedSuffix, h0]
    rw [hsx, pyFormat_fixed 0 none (by simp) z' _ 0 (mainType_f p)] at hE
    injection hE with hE
    obtain ⟨h1, h2, h3⟩ := fixedStr_zero z' (decide (p.comma ≠ [])) (mainType_f p)
    rw [hE] at h1 h2 h3
    have hlat : latexErr (optionsOf p) (.fin 0) Es = Es := by simp [latexErr]
    simp only [hsp, hlat, Bool.true_eq_false, and_false, if_false, List.append_nil] at hB
    exact ⟨Es, hp, wrapPm_bare hB, ⟨h1, h2⟩, fun h => h3 (hz (.inr h)).2⟩

/-- The text of a finite nominal value. -/
theorem FlOps.format_nominal {f : FlOps} {x : FNum} {s : FNum} {spec out : Str} {p : FmtParts} (hp : parseSpec spec = some p)
    (h : f.formatU x s spec = .ok out) :
    p.Valid ∧ ∃ plan, f.formatPlan p x s = .ok plan ∧ ∀ q, plan.nomMain = .fin q → ∃ (z : Option ℕ) (N X : Str),
      ((p.width = [] ∨ p.zero = []) → z = none) ∧ NominalText out N X ∧ OptExp X plan.commonExp ∧
      pyFormat (.fin q) (specPrefix p.sign.head? z (p.comma ≠ []) ++ fmtSuffixN plan.errorMain p plan.prec (mainType p)) = .ok N := by
  obtain ⟨p', plan, hp', hv, hplan, hout⟩ := f.format_ok h
  obtain rfl : p = p' := by rw [hp] at hp'; injection hp'
  refine ⟨hv, plan, hplan, fun q hq => ?_⟩
  obtain ⟨lo, S', pr, -, hE, -⟩ := f.formatPlan_ok hv hplan
  have hpe : '%' ∈ optionsOf p → plan.commonExp = none := by
    intro h
    have h' := (percent_mem hv).1 h
    rw [hE]
    unfold FlOps.commonExponent presOf
    rw [if_pos h', if_pos (.inl rfl)]
  have hlat : ∀ s, latexNom (optionsOf p) plan.nomMain s = s := by
    intro s
    rw [hq]
    simp [latexNom]
  have hinf : plan.nomMain.isInfinite = false := by rw [hq]; rfl
  have hx := expStr_opt plan.commonExp (mainType_f p) (optionsOf p)
  unfold FlOps.formatNum at hout
  by_cases hS : 'S' ∈ optionsOf p
  · rw [if_pos hS] at hout
    obtain ⟨z, Ns, U, hz, -, hN, -, hpad⟩ := f.formatShorthand_ok hv hout
    rw [hlat] at hpad
    rw [hq] at hN
    obtain ⟨c, i, j, rfl⟩ := hpad.rep
    exact ⟨z, Ns, _, hz, .shorthand _ _ _ _ _ _ _ (percentStr_sign _), hx, hN⟩
  · rw [if_neg hS] at hout
    obtain ⟨z, z', Ns, Es, A, B, hz, -, hN, -, hA, -, rfl⟩ := formatPm_ok hv hout
    rw [hlat] at hA
    rw [hq] at hN
    simp only [hinf, and_true] at hA
    exact ⟨z, Ns, _, fun h => (hz h).1, wrapPm_nominal hpe hA, hx, hN⟩

/-- The number of decimals of a float in the formats `f` and `e`: 6 by default. -/
def floatDecimals (p : FmtParts) : ℕ := match p.prec with | some d => digitsVal d | none => 6

theorem floatDecimals_eq {p : FmtParts} (hv : p.Valid) :
    (if p.prec.getD [] ≠ [] then digitsVal (p.prec.getD []) else 6) = floatDecimals p := by
  unfold floatDecimals
  cases hp : p.prec with
  | none => rfl
  | some d =>
    obtain ⟨hne, -⟩ := hv.prec d hp
    simp [hne]

/-- The nominal value is close to the one printed. -/
theorem FlOps.Sound.nominal_near {f : FlOps} (hf : f.Sound) {p : FmtParts} {x : ℚ} (hx : InRange x) {E : Option ℤ}
    (hE : ∀ e ∈ E, -115 ≤ e ∧ e ≤ 115) (prec : ℕ) :
    Shown.NearFl ⟨prec, pyRound (f.mant E (f.scaled p x)) prec, E⟩ (x * percentFactor (decide (p.type = ['%']))) := by
  obtain ⟨x1, x2, -⟩ := hf.scaled_near p hx
  have hfac : percentFactor (decide (p.type = ['%'])) = scaleOf p := by
    unfold percentFactor scaleOf
    simp
  have mX := hf.mant_near (q := f.scaled p x) hE (x2.imp id fun ⟨a, b⟩ =>
    ⟨(ten_le_iff.2 (by norm_num)).trans a, b.trans (ten_le_iff.2 (by norm_num))⟩)
  rw [hfac]
  refine near_of (f.scaled p x) _ _ _ E _ (x1.trans ?_) mX ((pyRound_half _ _).trans ?_)
  · have := abs_nonneg (x * scaleOf p)
    linarith
  · have := abs_nonneg (f.mant E (f.scaled p x))
    linarith

/-- **C76**, formats `f`, `F` and `%`, uncertainty zero, infinite or NaN: the nominal value has the number of decimals of a
float, and it is the stored one up to half a unit of the last decimal. -/
theorem C76_nominal_f (f : FlOps) (hf : f.Sound) (x : ℚ) (hx : InRange x) (s : FNum) (hs : s = .fin 0 ∨ s = .nan ∨ ∃ b, s = .inf b)
    (spec out : Str) (p : FmtParts) (hp : parseSpec spec = some p) (ht : p.type = ['f'] ∨ p.type = ['F'] ∨ p.type = ['%'])
    (h : f.formatU (.fin x) s spec = .ok out) :
    ∃ (N : Str) (n : Shown), NominalText out N [] ∧ Fixed N n.places n.mantissa ∧ n.exp = none ∧ n.places = floatDecimals p ∧
      n.NearFl (x * percentFactor (decide (p.type = ['%']))) := by
  have hsp : specialError s = true := by
    rcases hs with rfl | rfl | ⟨b, rfl⟩
    · decide +kernel
    · rfl
    · cases b <;> rfl
  obtain ⟨hv, plan, hplan, hN⟩ := f.format_nominal hp h
  obtain ⟨-, herr, hq⟩ := hf.plan_special hv hsp hplan
  obtain ⟨l, hl, hE, hnom, hprec⟩ := hq x rfl
  have hff : presOf p = some 'f' ∨ presOf p = some 'F' := by
    rw [presOf_f]
    rcases ht with h | h | h <;> rw [h] <;> simp
  have hne : presOf p ≠ none := by intro h; rw [h] at hff; simp at hff
  have hE0 : plan.commonExp = none := by
    rw [hE]
    unfold FlOps.commonExponent
    rw [if_pos hff]
  rw [if_pos hff, floatDecimals_eq hv] at hl
  have hpr : plan.prec = floatDecimals p := by rw [hprec hne, hE0, hl]; simp
  obtain ⟨z, N, X, -, hNT, hX, hN⟩ := hN _ hnom
  rw [hE0] at hX hN
  obtain rfl : X = [] := hX
  have hsx : fmtSuffixN plan.errorMain p plan.prec (mainType p) = fixedSuffix plan.prec (mainType p) := by
    have : isGType p.type = false := by
      unfold isGType
      rcases ht with h | h | h <;> rw [h] <;> decide
    simp [fmtSuffixN, this]
  rw [hsx, pyFormat_fixed _ _ (sign_head hv) z _ _ (mainType_f p)] at hN
  injection hN with hN
  have hF := fixedStr_fixed (f.mant none (f.scaled p x)) p.sign.head? z (decide (p.comma ≠ [])) plan.prec (mainType_f p)
  rw [hN, hpr] at hF
  exact ⟨N, _, hNT, hF, rfl, rfl, hf.nominal_near (E := none) hx (by simp) _⟩

/-- **C76**, formats `e` and `E`, uncertainty zero, infinite or NaN: the nominal value is the stored one up to half a unit of the
last digit and, for at most 11 decimals, it has the number of decimals of a float and the exponent of the rounded value. -/
theorem C76_nominal_e (f : FlOps) (hf : f.Sound) (x : ℚ) (hx : InRange x) (hx0 : x ≠ 0) (s : FNum)
    (hs : s = .fin 0 ∨ s = .nan ∨ ∃ b, s = .inf b) (spec out : Str) (p : FmtParts) (hp : parseSpec spec = some p)
    (ht : p.type = ['e'] ∨ p.type = ['E']) (h : f.formatU (.fin x) s spec = .ok out) :
    ∃ (N X : Str) (n : Shown) (e : ℤ), NominalText out N X ∧ Fixed N n.places n.mantissa ∧ OptExp X n.exp ∧ n.NearFl x ∧
      n.exp = some e ∧ (floatDecimals p ≤ 11 → n.places = floatDecimals p ∧
        ∃ m l : ℤ, Rounds |x| l m ∧ HasDigits m (floatDecimals p + 1) ∧ HasExponent (m * (10 : ℚ) ^ l) e) := by
  have hsp : specialError s = true := by
    rcases hs with rfl | rfl | ⟨b, rfl⟩
    · decide +kernel
    · rfl
    · cases b <;> rfl
  obtain ⟨hv, plan, hplan, hN⟩ := f.format_nominal hp h
  obtain ⟨-, herr, hq⟩ := hf.plan_special hv hsp hplan
  obtain ⟨l, hl, hE, hnom, hprec⟩ := hq x rfl
  obtain ⟨q1, q2, q3, q4⟩ := pres_e ht
  have htp : p.type ≠ ['%'] := by rcases ht with h | h <;> rw [h] <;> decide
  have hsx : f.scaled p x = x := by unfold FlOps.scaled; rw [if_neg htp]
  have hnear := fun E hE => hf.nominal_near (p := p) (E := E) hx hE
  rw [decide_eq_false htp] at hnear
  simp only [percentFactor, Bool.false_eq_true, if_false, mul_one] at hnear
  rw [hsx] at hl hE hnom hnear
  obtain ⟨z, N, X, -, hNT, hX, hN⟩ := hN _ hnom
  rw [if_neg q2] at hl
  have hfd : floatDigits p (presOf p) = floatDecimals p + 1 := by
    unfold floatDigits
    simp only [if_pos q1, if_neg q4]
    rw [floatDecimals_eq hv]
  rw [hfd] at hl
  have hsuf : fmtSuffixN plan.errorMain p plan.prec (mainType p) = fixedSuffix plan.prec (mainType p) := by
    simp [fmtSuffixN, q3]
  rw [hsuf, pyFormat_fixed _ _ (sign_head hv) z _ _ (mainType_f p)] at hN
  injection hN with hN
  have hF := fixedStr_fixed (f.mant plan.commonExp x) p.sign.head? z (decide (p.comma ≠ [])) plan.prec (mainType_f p)
  rw [hN] at hF
  obtain ⟨x1, x2⟩ := hx.resolve_left hx0
  have hmax : max |x| 0 = |x| := max_eq_left (abs_nonneg x)
  have hx3 : |x| ≤ (10 : ℚ) ^ (103 : ℤ) := x2.trans (ten_le_iff.2 (by norm_num))
  have hEr := hf.exponent_small hE (by rw [hmax]; exact x1) (by rw [hmax]; exact hx3)
  obtain ⟨e, he⟩ : ∃ e, plan.commonExp = some e := by
    rw [hE]
    unfold FlOps.commonExponent
    rw [if_neg q2]
    simp only [expRefValue]
    rw [if_pos q1]
    exact ⟨_, rfl⟩
  refine ⟨N, X, ⟨plan.prec, pyRound (f.mant plan.commonExp x) plan.prec, plan.commonExp⟩, e, hNT, hF, hX, hnear _ hEr _, he, fun h11 => ?_⟩
  have hax : 0 < |x| := abs_pos.2 hx0
  rw [hmax] at hl
  rw [hf.signif_eq ((ten_le_iff.2 (by norm_num)).trans x1) (x2.trans (ten_le_iff.2 (by norm_num))) (by omega) (by omega)] at hl
  have hdig : HasDigits (rhe (|x| / (10 : ℚ) ^ l)) (floatDecimals p + 1) := by
    rw [hl]
    exact signif_hasDigits hax (by omega)
  have hr : 1 ≤ rhe (|x| / (10 : ℚ) ^ l) := by
    rw [hl]
    have := (signif_pos hax (n := floatDecimals p + 1) (by omega)).1
    have h2 : (1 : ℤ) ≤ 10 ^ (floatDecimals p + 1 - 1) := one_le_pow₀ (by norm_num)
    omega
  have hr2 : rhe (|x| / (10 : ℚ) ^ l) ≤ 10 ^ 12 := by
    have h1 := hdig.2
    have h2 : (10 : ℕ) ^ (floatDecimals p + 1) ≤ 10 ^ 12 := Nat.pow_le_pow_right (by norm_num) (by omega)
    have h3 : (rhe (|x| / (10 : ℚ) ^ l)).natAbs ≤ 10 ^ 12 := by omega
    have h4 := Int.le_natAbs (a := rhe (|x| / (10 : ℚ) ^ l))
    refine h4.trans ?_
    exact_mod_cast h3
  have hl0 : -250 ≤ l := by
    have := hf.signif_ge (a := -100) (b := 103) (by norm_num) (by norm_num) x1 hx3 (floatDecimals p + 1)
    rw [hf.signif_eq ((ten_le_iff.2 (by norm_num)).trans x1) (x2.trans (ten_le_iff.2 (by norm_num))) (by omega) (by omega), ← hl] at this
    omega
  rw [← hmax] at hr hr2
  rw [hf.exponent_eq hl0 (by rw [hmax]; exact x2.trans (ten_le_iff.2 (by norm_num))) hr hr2, (exponent_cases q2 hr).1,
    if_pos (.inl q1)] at hE
  rw [hmax] at hE hr
  have hee : e = firstDigit (pyRound |x| (-l)) := by rw [he] at hE; exact Option.some.inj hE
  refine ⟨?_, _, l, pyRound_rounds _ _, hdig, by rw [hee]; exact (ref_exponent hr).1⟩
  show plan.prec = _
  rw [hprec q4, hE, places_of_digits hdig hr]
  simp
  omega

/-- **C76**, formats `g`, `G` and no type, uncertainty zero, infinite or NaN, for at most 12 digits: the exponent is chosen from
the nominal value rounded to the number of digits of the format, as in C42; without exponent, the nominal value is formatted as
the float itself (with the precision as a width, see C44). -/
theorem C76_nominal_g (f : FlOps) (hf : f.Sound) (x : ℚ) (hx : InRange x) (hx0 : x ≠ 0) (s : FNum)
    (hs : s = .fin 0 ∨ s = .nan ∨ ∃ b, s = .inf b) (spec out : Str) (p : FmtParts) (hp : parseSpec spec = some p)
    (ht : p.type = [] ∨ p.type = ['g'] ∨ p.type = ['G']) (h12 : generalDigits p ≤ 12) (h : f.formatU (.fin x) s spec = .ok out) :
    ∃ N X, ∃ m l e : ℤ, NominalText out N X ∧ Rounds |x| l m ∧ HasDigits m (generalDigits p) ∧
      HasExponent (m * (10 : ℚ) ^ l) e ∧ OptExp X (generalExp e l) ∧
      (X = [] → p.width = [] → pyFormat (.fin x) (p.sign ++ p.comma ++ gSuffix p) = .ok N) := by
  have hsp : specialError s = true := by
    rcases hs with rfl | rfl | ⟨b, rfl⟩
    · decide +kernel
    · rfl
    · cases b <;> rfl
  obtain ⟨hv, plan, hplan, hN⟩ := f.format_nominal hp h
  obtain ⟨-, herr, hq⟩ := hf.plan_special hv hsp hplan
  obtain ⟨l, hl, hE, hnom, hprec⟩ := hq x rfl
  obtain ⟨q1, q2, q3⟩ := pres_g ht
  have htp : p.type ≠ ['%'] := by rcases ht with h | h | h <;> rw [h] <;> decide
  have hsx : f.scaled p x = x := by unfold FlOps.scaled; rw [if_neg htp]
  rw [hsx] at hl hE hnom
  obtain ⟨z, N, X, hz, hNT, hX, hN⟩ := hN _ hnom
  rw [if_neg q2, floatDigits_general hv ht] at hl
  have hg1 : 1 ≤ generalDigits p := by rw [← floatDigits_general hv ht]; exact floatDigits_pos _ _
  obtain ⟨x1, x2⟩ := hx.resolve_left hx0
  have hmax : max |x| 0 = |x| := max_eq_left (abs_nonneg x)
  have hx3 : |x| ≤ (10 : ℚ) ^ (103 : ℤ) := x2.trans (ten_le_iff.2 (by norm_num))
  have hax : 0 < |x| := abs_pos.2 hx0
  rw [hmax] at hl
  have hl0 : -250 ≤ l := by
    have := hf.signif_ge (a := -100) (b := 103) (by norm_num) (by norm_num) x1 hx3 (generalDigits p)
    rw [← hl] at this
    omega
  rw [hf.signif_eq ((ten_le_iff.2 (by norm_num)).trans x1) (x2.trans (ten_le_iff.2 (by norm_num))) hg1 h12] at hl
  have hdig : HasDigits (rhe (|x| / (10 : ℚ) ^ l)) (generalDigits p) := by
    rw [hl]
    exact signif_hasDigits hax hg1
  have hr : 1 ≤ rhe (|x| / (10 : ℚ) ^ l) := by
    rw [hl]
    have := (signif_pos hax hg1).1
    have h2 : (1 : ℤ) ≤ 10 ^ (generalDigits p - 1) := one_le_pow₀ (by norm_num)
    omega
  have hr2 : rhe (|x| / (10 : ℚ) ^ l) ≤ 10 ^ 12 := by
    have h1 := hdig.2
    have h2 : (10 : ℕ) ^ generalDigits p ≤ 10 ^ 12 := Nat.pow_le_pow_right (by norm_num) h12
    have h3 : (rhe (|x| / (10 : ℚ) ^ l)).natAbs ≤ 10 ^ 12 := by omega
    have h4 := Int.le_natAbs (a := rhe (|x| / (10 : ℚ) ^ l))
    refine h4.trans ?_
    exact_mod_cast h3
  rw [← hmax] at hr hr2
  rw [hf.exponent_eq hl0 (by rw [hmax]; exact x2.trans (ten_le_iff.2 (by norm_num))) hr hr2, (exponent_cases q2 hr).1] at hE
  simp only [q1, false_or] at hE
  rw [hmax] at hE hr
  refine ⟨N, X, _, l, _, hNT, pyRound_rounds _ _, hdig, (ref_exponent hr).1, ?_, ?_⟩
  · unfold generalExp
    rw [← hE]
    exact hX
  · rintro rfl hw
    have hE0 : plan.commonExp = none := by
      cases hE' : plan.commonExp with
      | none => rfl
      | some e =>
        rw [hE'] at hX
        exfalso
        obtain ⟨t, h1, h2⟩ : ∃ t : Str, t = [] ∧ ExpShown t e := ⟨[], rfl, hX⟩
        cases h2 <;> simp at h1
    rw [hE0, hz (.inl hw), ← prefix_plain hv] at hN
    simpa [fmtSuffixN, herr, hsp, q3, FlOps.mant] using hN

/-- The uncertainty is close to the one printed. -/
theorem FlOps.Sound.uncertainty_near {f : FlOps} (hf : f.Sound) {E : Option ℤ} (hE : ∀ e ∈ E, -115 ≤ e ∧ e ≤ 115) {S' T : ℚ}
    (b1 : (10 : ℚ) ^ (-101 : ℤ) ≤ S') (b2 : S' ≤ (10 : ℚ) ^ (104 : ℤ)) (hT : 0 < T) (hST : |S' - T| ≤ T * (4 / 10 ^ 15)) (prec : ℕ) :
    Shown.NearFl ⟨prec, pyRound (f.mant E S') prec, E⟩ T := by
  have hS'0 : 0 < S' := (ten_pos _).trans_le b1
  have mS := hf.mant_near (q := S') hE (.inr (by
    rw [abs_of_pos hS'0]
    exact ⟨(ten_le_iff.2 (by norm_num)).trans b1, b2.trans (ten_le_iff.2 (by norm_num))⟩))
  refine near_of S' T _ _ E _ (by rw [abs_of_pos hT]; exact hST) mS ((pyRound_half _ _).trans ?_)
  have := abs_nonneg (f.mant E S')
  linarith

/-- **C76**, nominal value infinite or NaN, ± notation, formats `e`, `E`, `f`, `F` and `%`: the uncertainty printed is the stored one
(or its rounding up by the rules of the Particle Data Group), up to half a unit of its last digit; with `f`, `F` and `%` and without
`u`, it has the number of decimals of a float. -/
theorem C76_uncertainty_fixed (f : FlOps) (hf : f.Sound) (x : FNum) (hx : x = .nan ∨ ∃ b, x = .inf b) (s : ℚ) (hs : 0 < s)
    (hsr : InRange s) (spec out : Str) (p : FmtParts) (hp : parseSpec spec = some p) (hS : 'S' ∉ p.options)
    (ht : p.type ≠ [] ∧ p.type ≠ ['g'] ∧ p.type ≠ ['G']) (h : f.formatU x (.fin s) spec = .ok out) :
    ∃ (U X : Str) (u : Shown) (s' : ℚ), UncertaintyText out U X ∧ Fixed U u.places u.mantissa ∧ OptExp X u.exp ∧
      SameOrPdgFl (s * percentFactor (decide (p.type = ['%']))) s' ∧ u.NearFl s' ∧
      (u.exp.isSome = true ↔ p.type = ['e'] ∨ p.type = ['E']) ∧
      (p.type = ['f'] ∨ p.type = ['F'] ∨ p.type = ['%'] → p.uncertPrec = [] → u.places = floatDecimals p) := by
  have hx' : x.isInfinite = true := by
    rcases hx with rfl | ⟨b, rfl⟩ <;> rfl
  obtain ⟨p', plan, hp', hv, hplan, hout⟩ := f.format_ok h
  obtain rfl : p = p' := by rw [hp] at hp'; injection hp'
  obtain ⟨l, S', T, hlim, hE, hEr, hnom, herr, hpos, hprec, b1, b2, t1, t2, t3⟩ := hf.plan_nonfin hv hx' hs hsr hplan
  have hfac : percentFactor (decide (p.type = ['%'])) = scaleOf p := by
    unfold percentFactor scaleOf
    simp
  have hg : isGType p.type = false := by
    have : ¬ isGType p.type = true := by
      intro h
      have : p.type = [] ∨ p.type = ['g'] ∨ p.type = ['G'] := by simpa [isGType, or_assoc] using h
      tauto
    simpa using this
  have hpe : '%' ∈ optionsOf p → plan.commonExp = none := by
    intro h
    have h' := (percent_mem hv).1 h
    rw [hE]
    unfold FlOps.commonExponent presOf
    rw [if_pos h', if_pos (.inl rfl)]
  have hS' : 'S' ∉ optionsOf p := fun h => hS ((mem_optionsOf p (by decide)).1 h)
  unfold FlOps.formatNum at hout
  rw [if_neg hS'] at hout
  obtain ⟨z, z', Ns, Es, A, B, hz, -, -, hEs, -, hB, rfl⟩ := formatPm_ok hv hout
  have hlat : latexErr (optionsOf p) plan.errorMain Es = Es := by rw [herr]; simp [latexErr]
  have hspe : specialError plan.errorMain = false := by rw [herr]; simp [specialError, FNum.truthy, FNum.isInfinite, hpos.ne']
  rw [hlat] at hB
  simp only [hspe, and_true] at hB
  have htr : plan.errorMain.truthy = true := by rw [herr]; simp [FNum.truthy, hpos.ne']
  have hsx : fmtSuffixE plan.nomMain plan.errorMain p plan.prec (mainType p) = fixedSuffix plan.prec (mainType p) := by
    simp [fmtSuffixE, hg, htr]
  rw [hsx, herr, pyFormat_fixed _ none (by simp) z' _ _ (mainType_f p)] at hEs
  injection hEs with hEs
  have hF := fixedStr_fixed (f.mant plan.commonExp S') none z' (decide (p.comma ≠ [])) plan.prec (mainType_f p)
  rw [hEs] at hF
  refine ⟨Es, _, ⟨plan.prec, pyRound (f.mant plan.commonExp S') plan.prec, plan.commonExp⟩, T, wrapPm_uncertainty hpe hB, hF,
    expStr_opt plan.commonExp (mainType_f p) (optionsOf p), by rw [hfac]; exact t1,
    hf.uncertainty_near hEr b1 b2 t2 t3 _, ?_, ?_⟩
  · show plan.commonExp.isSome = true ↔ _
    by_cases hff : presOf p = some 'f' ∨ presOf p = some 'F'
    · have h0 : plan.commonExp = none := by
        rw [hE]
        unfold FlOps.commonExponent
        rw [if_pos hff]
      rw [h0]
      have := type_f hv hff
      constructor
      · intro h; cases h
      · rintro (h | h) <;> rw [h] at this <;> simp at this
    · have hpr : presOf p = some 'e' ∨ presOf p = some 'E' := by
        have h0 : p.type ≠ ['%'] := fun h => hff (by unfold presOf; rw [if_pos h]; exact .inl rfl)
        have hff' := hff
        unfold presOf at hff' ⊢
        rw [if_neg h0] at hff' ⊢
        obtain ⟨t0, tg, tG⟩ := ht
        rcases hv.type with h | ⟨c, hc, h⟩
        · exact absurd h t0
        · rw [h] at h0 hff' tg tG ⊢
          simp only [List.mem_cons, List.not_mem_nil, or_false] at hc
          rcases hc with rfl | rfl | rfl | rfl | rfl | rfl | rfl <;> simp_all
      have h0 : plan.commonExp.isSome = true := by
        rw [hE]
        unfold FlOps.commonExponent
        rw [if_neg hff]
        simp only [expRefValue]
        rw [if_pos hpr]
        rfl
      simp only [h0, true_iff]
      have h1 : p.type ≠ ['%'] := fun h => hff (by unfold presOf; rw [if_pos h]; exact .inl rfl)
      unfold presOf at hpr
      rw [if_neg h1] at hpr
      rcases hv.type with h | ⟨c, hc, h⟩
      · rw [h] at hpr; simp at hpr
      · rw [h] at hpr ⊢
        simpa using hpr
  · intro hty hu
    have hff : presOf p = some 'f' ∨ presOf p = some 'F' := by
      rw [presOf_f]
      rcases hty with h | h | h <;> rw [h] <;> simp
    have hne : presOf p ≠ none := by intro h; rw [h] at hff; simp at hff
    have h0 : plan.commonExp = none := by
      rw [hE]
      unfold FlOps.commonExponent
      rw [if_pos hff]
    show plan.prec = _
    rw [hprec, h0]
    obtain ⟨d, hd, hdv, hun⟩ := FlOps.withPrec_digits hv (presOf p)
    have hal : p.alone (presOf p) = p.withPrec (presOf p) := by unfold FmtParts.alone; rw [if_pos hu]
    rw [hal] at hlim
    simp only [if_neg hne] at hdv
    rw [floatDecimals_eq hv] at hdv
    cases hlim with
    | digits d' hd' hu' => rw [hun] at hu'; exact absurd hu hu'
    | pdg hd' => rw [hd] at hd'; cases hd'
    | fixed d' hd' =>
      rw [hd] at hd'
      obtain rfl := Option.some.inj hd'
      rw [← hdv]
      simp
    | float d' hd' hu' hf' => exact absurd hff hf'

/-! ### Concrete cases -/

example : (FNum.fin (FlOps.rnd64 (314159 / 100000))).InRange := fun q h => by
  obtain rfl := FNum.fin.inj h
  exact .inr (by decide +kernel)
example : doubles.formatU (.fin (FlOps.rnd64 (314159 / 100000))) .nan "*^12eL".toList =
    .ok "3.141590 \\times 10^{0} \\pm \\mathrm{nan}".toList := by decide +kernel
example : doubles.formatU (.fin (FlOps.rnd64 (314159 / 100000))) (.fin 0) ".2eS".toList = .ok "3.14(0)e+00".toList := by decide +kernel
example : doubles.formatU (.fin (FlOps.rnd64 (314159 / 100000))) (.inf false) ".3%".toList = .ok "(314.159+/-inf)%".toList := by decide +kernel
example : doubles.formatU (.fin (FlOps.rnd64 (1234567 / 10))) (.fin 0) "g".toList = .ok "123457+/-0".toList := by decide +kernel
example : doubles.formatU .nan (.fin (FlOps.rnd64 (97 / 100))) "ue".toList = .ok "(nan+/-1.0)e+00".toList := by decide +kernel
example : doubles.formatU (.inf true) (.fin (FlOps.rnd64 (97 / 100))) ".2f".toList = .ok "-inf+/-0.97".toList := by decide +kernel

end Unc
