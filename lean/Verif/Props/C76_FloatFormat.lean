import Verif.Lemmas.FloatLayout
import Verif.Py.B64Format

/-!
# C76: formatting with floating-point arithmetic

`FlOps.formatU` is `__format__` with a rounding after each operation; `FlOps.Sound` is what is assumed of the operations.
The theorems are about numbers between 1e-100 and 1e100 (`InRange`).
-/

set_option autoImplicit false

namespace Unc

/-- Doubles with the correctly rounded logarithm have the properties assumed below. -/
theorem C76_doubles_sound : (FlOps.double FlOps.logRounded).Sound := FlOps.rounded_sound

/-- With exact operations, this is the model of the other formatting properties (C38, C41, C42, C63…). -/
theorem C76_exact_model (nom std : FNum) (spec : Str) : FlOps.exact.formatU nom std spec = formatU nom std spec := by
  have hfd : ∀ v, FlOps.exact.firstDigit v = firstDigit v := fun v => rfl
  have hpdg : ∀ v, FlOps.exact.pdgPrecision v = pdgPrecision v := fun v => rfl
  have hsig : ∀ v n, FlOps.exact.signifDgtToLimit v n = signifDgtToLimit v n := fun v n => rfl
  have hsh : ∀ q prec, FlOps.exact.shorthandUncert q prec = shorthandUncert q prec := by
    intro q prec
    unfold FlOps.shorthandUncert shorthandUncert
    have hr : FlOps.exact.round q prec = pyRound q prec := rfl
    have hp : (do let f ← pow10 prec; pure (intStr (rhe (pyRound q prec * f))) : PyRes Str) =
        if 308 < prec then throw .overflowError else pure (intStr (rhe (FlOps.exact.rnd (pyRound q prec * FlOps.exact.ten prec)))) := by
      unfold pow10
      by_cases h : 308 < prec
      · rw [if_pos h, if_pos (by exact_mod_cast h)]
        rfl
      · rw [if_neg h, if_neg (by exact_mod_cast h)]
        rfl
    simp only [hr, hfd]
    rw [hp]
  have hun : ∀ y prec t o, FlOps.exact.uncertStr y prec t o = uncertStr y prec t o := by
    intro y prec t o
    unfold FlOps.uncertStr
    split
    · unfold uncertStr
      simp only [hsh]
    · rfl
  have hnum : ∀ a b c p prec t o, FlOps.exact.formatNum a b c p prec t o = formatNum a b c p prec t o := by
    intro a b c p prec t o
    unfold FlOps.formatNum formatNum FlOps.formatShorthand formatShorthand
    simp only [hun]
  have hfac : ∀ e, FlOps.exact.mantissaFactor e = mantissaFactor e := by
    intro e
    unfold FlOps.mantissaFactor mantissaFactor pow10
    split_ifs <;> rfl
  have hlim : ∀ p pres a b, FlOps.exact.digitsLimit p pres a b = digitsLimit p pres a b := fun p pres a b => rfl
  have hplan : ∀ p, FlOps.exact.formatPlan p nom std = formatPlan p nom std := by
    intro p
    unfold FlOps.formatPlan formatPlan
    simp only [hfac, hlim]
    rfl
  unfold FlOps.formatU formatU
  simp only [hplan, hnum]
  cases parseSpec spec <;> rfl

/-- **C76**: nominal value and uncertainty are printed with the same number of digits after the decimal point and the same
exponent, and they differ from the nominal value and the uncertainty by at most half a unit of the last printed digit, plus
a relative error of `1e-13`.  (In the shorthand notation, for a precision of at most 50.) -/
theorem C76_faithful (f : FlOps) (hf : f.Sound) (x s : ℚ) (hx : InRange x) (hs : 0 < s) (hsr : InRange s) (spec out : Str)
    (hprec : ∀ p d, parseSpec spec = some p → 'S' ∈ p.options → p.prec = some d → digitsVal d ≤ 50)
    (h : f.formatU (.fin x) (.fin s) spec = .ok out) :
    ∃ n u percent, FaithfulFl x s out n u percent ∧ n.places = u.places ∧ n.exp = u.exp := by
  obtain ⟨p, -, -, l, S', E, k, -, -, -, -, -, -, hF⟩ := hf.format_displays hx hs hsr hprec h
  exact ⟨_, _, _, hF, rfl, rfl⟩

/-- **C76**, `.pf`, `.pF` and `.p%`: `p` digits after the decimal point. -/
theorem C76_decimals (f : FlOps) (hf : f.Sound) (x s : ℚ) (hx : InRange x) (hs : 0 < s) (hsr : InRange s) (spec out : Str)
    (p : FmtParts) (hp : parseSpec spec = some p) (d : Str) (hd : p.prec = some d) (hu : p.uncertPrec = [])
    (ht : p.type = ['f'] ∨ p.type = ['F'] ∨ p.type = ['%']) (hprec : 'S' ∈ p.options → digitsVal d ≤ 50)
    (h : f.formatU (.fin x) (.fin s) spec = .ok out) :
    ∃ n u, FaithfulFl x s out n u (decide (p.type = ['%'])) ∧ n.places = digitsVal d ∧ u.places = digitsVal d ∧
      n.exp = none ∧ u.exp = none := by
  obtain ⟨p', hp', hv, l, S', E, k, hl, hE, -, -, -, -, hF⟩ := hf.format_displays hx hs hsr
    (fun p' d' hp' hS hd' => by
      obtain rfl : p = p' := by rw [hp] at hp'; injection hp'
      rw [hd] at hd'
      obtain rfl := Option.some.inj hd'
      exact hprec hS) h
  obtain rfl : p = p' := by rw [hp] at hp'; injection hp'
  have hff : presOf p = some 'f' ∨ presOf p = some 'F' := by
    rw [presOf_f]
    rcases ht with h | h | h <;> rw [h] <;> simp
  have hE0 : E = none := by
    rw [hE]
    unfold FlOps.commonExponent
    rw [if_pos hff]
  subst hE0
  have hll : l = -(digitsVal d : ℤ) := by
    cases hl with
    | digits d' hd' hu' => exact absurd hu hu'
    | pdg hd' => rw [hd] at hd'; cases hd'
    | fixed d' hd' =>
      rw [hd] at hd'
      obtain rfl := Option.some.inj hd'
      rfl
    | float d' hd' hu' hf' => exact absurd hff hf'
  have hpl : ((none : Option ℤ).getD 0 - l).toNat = digitsVal d := by rw [hll]; simp
  exact ⟨_, _, hF, hpl, hpl, rfl, rfl⟩

/-- The numbers of the theorems below are in the range of the lemmas. -/
theorem float_range {f : FlOps} (hf : f.Sound) {x s : ℚ} (hx : InRange x) (hs : 0 < s) (hsr : InRange s) (p : FmtParts) :
    (10 : ℚ) ^ (-100 : ℤ) ≤ f.scaled p s ∧ f.scaled p s ≤ (10 : ℚ) ^ (103 : ℤ) ∧ |f.scaled p x| ≤ (10 : ℚ) ^ (103 : ℤ) ∧
      max |f.scaled p x| (f.scaled p s) ≤ (10 : ℚ) ^ (110 : ℤ) := by
  obtain ⟨-, h2, h3⟩ := hf.scaled_near p hsr
  have h0 := h3 hs
  have hS : (10 : ℚ) ^ (-100 : ℤ) ≤ f.scaled p s ∧ f.scaled p s ≤ (10 : ℚ) ^ (103 : ℤ) := by
    rcases h2 with h2 | h2
    · exact absurd h2 h0.ne'
    · rwa [abs_of_pos h0] at h2
  have hX : |f.scaled p x| ≤ (10 : ℚ) ^ (103 : ℤ) := by
    rcases (hf.scaled_near p hx).2.1 with h | ⟨-, h⟩
    · rw [h, abs_zero]; exact (ten_pos _).le
    · exact h
  exact ⟨hS.1, hS.2, hX, (max_le hX hS.2).trans (ten_le_iff.2 (by norm_num))⟩

/-- **C76**, `.pe` and `.pE`, for `p ≤ 11`: `p` digits after the decimal point of the mantissas. -/
theorem C76_mantissa_decimals (f : FlOps) (hf : f.Sound) (x s : ℚ) (hx : InRange x) (hs : 0 < s) (hsr : InRange s)
    (spec out : Str) (p : FmtParts) (hp : parseSpec spec = some p) (d : Str) (hd : p.prec = some d) (hu : p.uncertPrec = [])
    (ht : p.type = ['e'] ∨ p.type = ['E']) (h11 : digitsVal d ≤ 11) (h : f.formatU (.fin x) (.fin s) spec = .ok out) :
    ∃ n u, FaithfulFl x s out n u false ∧ n.places = digitsVal d ∧ u.places = digitsVal d ∧ n.exp.isSome ∧ u.exp = n.exp := by
  have hdall : ∀ d', p.prec = some d' → digitsVal d' ≤ 11 := by
    intro d' hd'
    rw [hd] at hd'
    obtain rfl := Option.some.inj hd'
    exact h11
  obtain ⟨p', hp', hv, l, S', E, k, hl, hE, -, -, -, -, hF⟩ := hf.format_displays hx hs hsr
    (fun p' d' hp' hS hd' => by
      obtain rfl : p = p' := by rw [hp] at hp'; injection hp'
      exact (hdall d' hd').trans (by norm_num)) h
  obtain rfl : p = p' := by rw [hp] at hp'; injection hp'
  have htp : p.type ≠ ['%'] := by rcases ht with h | h <;> rw [h] <;> decide
  have hpres : presOf p = some 'e' ∨ presOf p = some 'E' := by
    unfold presOf
    rw [if_neg htp]
    rcases ht with h | h <;> rw [h] <;> simp
  have hff : ¬ (presOf p = some 'f' ∨ presOf p = some 'F') := by
    rcases hpres with h | h <;> rw [h] <;> decide
  obtain ⟨r1, r2, r3, r4⟩ := float_range hf hx hs hsr p
  obtain ⟨hl0, hr⟩ := hl.ref hf r1 r2 r3 hdall
  have hr := hr (.inl hff)
  have hv0 : 0 < max |f.scaled p x| (f.scaled p s) := lt_of_lt_of_le ((ten_pos _).trans_le r1) (le_max_right _ _)
  have hll : l = signifDgtToLimit (max |f.scaled p x| (f.scaled p s)) ((digitsVal d + 1 : ℕ) : ℤ) := by
    cases hl with
    | digits d' hd' hu' => exact absurd hu hu'
    | pdg hd' => rw [hd] at hd'; cases hd'
    | fixed d' hd' hu' hf' => exact absurd hf' hff
    | float d' hd' hu' hf' n hn =>
      rw [hd] at hd'
      obtain rfl := Option.some.inj hd'
      rw [if_pos hpres] at hn
      rw [hn]
      exact hf.signif_eq ((ten_le_iff.2 (by norm_num)).trans (r1.trans (le_max_right _ _))) (r4.trans (ten_le_iff.2 (by norm_num)))
        (by omega) (by omega)
  have hdig : HasDigits (rhe (max |f.scaled p x| (f.scaled p s) / (10 : ℚ) ^ l)) (digitsVal d + 1) := by
    rw [hll]
    exact signif_hasDigits hv0 (by omega)
  have hr2 : rhe (max |f.scaled p x| (f.scaled p s) / (10 : ℚ) ^ l) ≤ 10 ^ 12 := by
    have h1 := hdig.2
    have h2 : (10 : ℕ) ^ (digitsVal d + 1) ≤ 10 ^ 12 := Nat.pow_le_pow_right (by norm_num) (by omega)
    have h3 : (rhe (max |f.scaled p x| (f.scaled p s) / (10 : ℚ) ^ l)).natAbs ≤ 10 ^ 12 := by omega
    have h4 := Int.le_natAbs (a := rhe (max |f.scaled p x| (f.scaled p s) / (10 : ℚ) ^ l))
    refine h4.trans ?_
    exact_mod_cast h3
  rw [hf.exponent_eq (by omega) r4 hr hr2, (exponent_cases hff hr).1, if_pos (.inl hpres), places_of_digits hdig hr] at hE
  have hpl : (E.getD 0 - l).toNat = digitsVal d := by rw [hE]; simp; omega
  rw [decide_eq_false htp] at hF
  exact ⟨_, _, hF, hpl, hpl, by show E.isSome = true; rw [hE]; rfl, rfl⟩

/-- **C76**, `.nu`, for `n ≤ 11`: the uncertainty has `n` significant digits – or it is shown as 10…0 with `n + 1` digits, if
an exponent is used.  (With the same exception as in C63 for the formats `f`, `F` and `%`.) -/
theorem C76_uncertainty_digits_partial (f : FlOps) (hf : f.Sound) (x s : ℚ) (hx : InRange x) (hs : 0 < s) (hsr : InRange s)
    (spec out : Str) (p : FmtParts) (hp : parseSpec spec = some p) (d : Str) (hd : p.prec = some d) (hu : p.uncertPrec ≠ [])
    (h11 : digitsVal d ≤ 11) (h : f.formatU (.fin x) (.fin s) spec = .ok out) :
    ∃ n u, FaithfulFl x s out n u (decide (p.type = ['%'])) ∧ n.places = u.places ∧ n.exp = u.exp ∧
      ((∃ m : ℕ, u.value = m * u.unit ∧ (HasDigits m (digitsVal d) ∨ m = 10 ^ digitsVal d ∧ u.exp ≠ none)) ∨
        ((p.type = ['f'] ∨ p.type = ['F'] ∨ p.type = ['%']) ∧ u.unit = 1 ∧ (10 : ℚ) ^ (digitsVal d - 1) ≤ u.value)) := by
  have hdall : ∀ d', p.prec = some d' → digitsVal d' ≤ 11 := by
    intro d' hd'
    rw [hd] at hd'
    obtain rfl := Option.some.inj hd'
    exact h11
  obtain ⟨p', hp', hv, l, S', E, k, hl, hE, hEr, hm0, hk1, hk2, hF⟩ := hf.format_displays hx hs hsr
    (fun p' d' hp' hS hd' => by
      obtain rfl : p = p' := by rw [hp] at hp'; injection hp'
      exact (hdall d' hd').trans (by norm_num)) h
  obtain rfl : p = p' := by rw [hp] at hp'; injection hp'
  obtain ⟨r1, r2, r3, r4⟩ := float_range hf hx hs hsr p
  obtain ⟨hl0, hr⟩ := hl.ref hf r1 r2 r3 hdall
  have hr := hr (.inr (.inr hu))
  have hll : l = signifDgtToLimit (f.scaled p s) (digitsVal d) ∧ S' = f.scaled p s ∧ 1 ≤ digitsVal d := by
    cases hl with
    | digits d' hd' hu' hpos =>
      rw [hd] at hd'
      obtain rfl := Option.some.inj hd'
      exact ⟨hf.signif_eq ((ten_le_iff.2 (by norm_num)).trans r1) (r2.trans (ten_le_iff.2 (by norm_num))) hpos (by omega), rfl, hpos⟩
    | pdg hd' => rw [hd] at hd'; cases hd'
    | fixed d' hd' hu' => exact absurd hu' hu
    | float d' hd' hu' => exact absurd hu' hu
  obtain ⟨hll, rfl, hpos⟩ := hll
  obtain ⟨c1, c2⟩ := hf.shown_digits ((ten_le_iff.2 (by norm_num)).trans r1) (r2.trans (ten_le_iff.2 (by norm_num))) hpos
    (by omega) hll hEr hk1 hk2
  refine ⟨_, _, hF, rfl, rfl, ?_⟩
  have hval : ∀ (prec : ℕ) (E : Option ℤ), Shown.value ⟨prec, (k : ℚ) / 10 ^ prec, E⟩ = k * Shown.unit ⟨prec, (k : ℚ) / 10 ^ prec, E⟩ := by
    intro prec E
    unfold Shown.value Shown.unit
    simp only []
    rw [ten_sub, zpow_natCast]
    ring
  by_cases hle : l ≤ E.getD 0
  · exact .inl ⟨k, hval _ _, c1 hle⟩
  · right
    have hff : presOf p = some 'f' ∨ presOf p = some 'F' := by
      by_contra hc
      exact hle (hf.unit_of_limit (by omega) r4 hr hE (.inl hc))
    have hE0 : E = none := by
      rw [hE]
      unfold FlOps.commonExponent
      rw [if_pos hff]
    subst hE0
    have hl1 : 0 < l := by simpa using hle
    have hpr : ((none : Option ℤ).getD 0 - l).toNat = 0 := by simp; omega
    have h1 : Shown.unit ⟨((none : Option ℤ).getD 0 - l).toNat, (k : ℚ) / 10 ^ ((none : Option ℤ).getD 0 - l).toNat, none⟩ = 1 := by
      unfold Shown.unit
      rw [hpr]
      simp
    refine ⟨type_f hv hff, h1, ?_⟩
    rw [hval, h1, mul_one]
    exact c2 rfl hl1

/-- **C76**, no precision: the number of significant digits of the uncertainty is that of the rules of the Particle Data
Group, for the three leading digits `t` of a number `v` that differs from the uncertainty by a relative error of at most
`1e-12` – with the same exceptions. -/
theorem C76_default_digits_partial (f : FlOps) (hf : f.Sound) (x s : ℚ) (hx : InRange x) (hs : 0 < s) (hsr : InRange s)
    (spec out : Str) (p : FmtParts) (hp : parseSpec spec = some p) (hd : p.prec = none)
    (h : f.formatU (.fin x) (.fin s) spec = .ok out) :
    ∃ n u, ∃ v : ℚ, ∃ t d, FaithfulFl x s out n u (decide (p.type = ['%'])) ∧ n.places = u.places ∧ n.exp = u.exp ∧
      |v - s * percentFactor (decide (p.type = ['%']))| ≤ s * percentFactor (decide (p.type = ['%'])) / 10 ^ 12 ∧
      LeadingDigits v t d ∧
      ((∃ m : ℕ, u.value = m * u.unit ∧ (t ≤ 354 → HasDigits m 2 ∨ m = 100 ∧ u.exp ≠ none) ∧
          (355 ≤ t → t ≤ 949 → HasDigits m 1 ∨ m = 10 ∧ u.exp ≠ none) ∧ (950 ≤ t → m = 10 ∧ u.unit = (10 : ℚ) ^ d)) ∨
        ((p.type = ['f'] ∨ p.type = ['F'] ∨ p.type = ['%']) ∧ u.unit = 1 ∧ 1 ≤ u.value)) := by
  have hdall : ∀ d', p.prec = some d' → digitsVal d' ≤ 11 := by
    intro d' hd'
    rw [hd] at hd'
    cases hd'
  obtain ⟨p', hp', hv, l, S', E, k, hl, hE, hEr, hm0, hk1, hk2, hF⟩ := hf.format_displays hx hs hsr
    (fun p' d' hp' hS hd' => by
      obtain rfl : p = p' := by rw [hp] at hp'; injection hp'
      exact (hdall d' hd').trans (by norm_num)) h
  obtain rfl : p = p' := by rw [hp] at hp'; injection hp'
  obtain ⟨r1, r2, r3, r4⟩ := float_range hf hx hs hsr p
  obtain ⟨hl0, hr⟩ := hl.ref hf r1 r2 r3 hdall
  have hr := hr (.inr (.inl hd))
  have hll : l = f.signifDgtToLimit (f.pdgPrecision (f.scaled p s)).2 (f.pdgPrecision (f.scaled p s)).1 ∧
      S' = (f.pdgPrecision (f.scaled p s)).2 := by
    cases hl with
    | digits d' hd' => rw [hd] at hd'; cases hd'
    | pdg => exact ⟨rfl, rfl⟩
    | fixed d' hd' => rw [hd] at hd'; cases hd'
    | float d' hd' => rw [hd] at hd'; cases hd'
  obtain ⟨v, t, d, P, hv1, hlead, hP, he⟩ := hf.pdg_cases ((ten_le_iff.2 (by norm_num)).trans r1) (r2.trans (ten_le_iff.2 (by norm_num)))
  rw [he] at hll
  have sc0 : 0 < s * scaleOf p := mul_pos hs (scaleOf_pos p)
  have snear := (hf.scaled_near p hsr).1
  rw [abs_of_pos sc0] at snear
  have hvn : |v - s * scaleOf p| ≤ s * scaleOf p / 10 ^ 12 := by
    rw [abs_le] at hv1 snear ⊢
    constructor <;> linarith [hv1.1, hv1.2, snear.1, snear.2]
  refine ⟨_, _, v, t, d, hF, rfl, rfl, by rw [scaleOf_factor]; exact hvn, hlead, ?_⟩
  have hval : ∀ (prec : ℕ) (E : Option ℤ), Shown.value ⟨prec, (k : ℚ) / 10 ^ prec, E⟩ = k * Shown.unit ⟨prec, (k : ℚ) / 10 ^ prec, E⟩ := by
    intro prec E
    unfold Shown.value Shown.unit
    simp only []
    rw [ten_sub, zpow_natCast]
    ring
  -- the case of `S' = S`
  have same : ∀ N : ℕ, 1 ≤ N → N ≤ 2 → l = f.signifDgtToLimit (f.scaled p s) N → S' = f.scaled p s →
      (l ≤ E.getD 0 → HasDigits k N ∨ k = 10 ^ N ∧ E ≠ none) ∧ (E = none → 0 < l → (1 : ℚ) ≤ k) := by
    intro N hN hN2 h1 h2
    rw [h2] at hk1 hk2
    obtain ⟨c1, c2⟩ := hf.shown_digits ((ten_le_iff.2 (by norm_num)).trans r1) (r2.trans (ten_le_iff.2 (by norm_num))) hN
      (by omega) (h1.trans (hf.signif_eq ((ten_le_iff.2 (by norm_num)).trans r1) (r2.trans (ten_le_iff.2 (by norm_num))) hN (by omega)))
      hEr hk1 hk2
    exact ⟨c1, fun a b => le_trans (one_le_pow₀ (by norm_num)) (c2 a b)⟩
  -- the case of a power of ten
  have power : ¬ t ≤ 949 → l = f.signifDgtToLimit P 2 → S' = P →
      (l ≤ E.getD 0 → k = 10 ∧ l = d) ∧ (E = none → 0 < l → (1 : ℚ) ≤ k) := by
    intro ht h1 h2
    have hrange : (10 : ℚ) ^ (-101 : ℤ) ≤ P ∧ P ≤ (10 : ℚ) ^ (104 : ℤ) := by
      have hsh := hl.shown hf sc0 snear r1 r2
      rw [h2] at hsh
      exact ⟨hsh.1, hsh.2.1⟩
    have hT := ten_pos (d + 1)
    have hdr : -110 ≤ d ∧ d ≤ 110 := by
      obtain ⟨p1, p2⟩ := hP
      constructor
      · have : (10 : ℚ) ^ (-101 : ℤ) ≤ (10 : ℚ) ^ (d + 2) := by
          refine hrange.1.trans (p2.trans ?_)
          rw [show d + 2 = d + 1 + 1 by ring, ten_add (d + 1), zpow_one]
          exact mul_le_mul_of_nonneg_left (by norm_num) hT.le
        have := ten_le_iff.1 this
        omega
      · have : (10 : ℚ) ^ d ≤ (10 : ℚ) ^ (104 : ℤ) := by
          refine le_trans ?_ (p1.trans hrange.2)
          rw [ten_add, zpow_one]
          have := ten_pos d
          nlinarith
        have := ten_le_iff.1 this
        omega
    obtain ⟨e1, e2⟩ := hf.signif_pow hdr.1 hdr.2 hP
    have hld : l = d := by rw [h1]; exact e1
    rw [h2] at hk1 hk2
    have q1 := (ten_le_iff.2 (by norm_num : (-105 : ℤ) ≤ -101)).trans hrange.1
    have q2 := hrange.2.trans (ten_le_iff.2 (by norm_num : (104 : ℤ) ≤ 105))
    obtain ⟨c1, c2⟩ := hf.shown_digits q1 q2 (N := 2) (by norm_num) (by norm_num)
      (hld.trans e2.symm) hEr hk1 hk2
    refine ⟨fun hle => ⟨?_, hld⟩, fun a b => le_trans (by norm_num) (c2 a b)⟩
    have hP0 : 0 < P := (ten_pos _).trans_le hrange.1
    obtain ⟨m1, -⟩ := hf.mant_units (q := P) hEr (.inr (by rw [abs_of_pos hP0]; exact ⟨q1, q2⟩)) hle
    have hdp := ten_pos d
    have hP10 : |P / (10 : ℚ) ^ d - 10| ≤ 4 / 10 ^ 14 := by
      have := hP.abs
      rw [ten_add, zpow_one] at this
      have e : P / (10 : ℚ) ^ d - 10 = (P - (10 : ℚ) ^ d * 10) / (10 : ℚ) ^ d := by field_simp
      rw [e, abs_div, abs_of_pos hdp, div_le_iff₀ hdp]
      linarith
    rw [hld] at m1 hk2
    rw [abs_of_pos (div_pos hP0 hdp)] at m1
    rw [abs_le] at m1 hP10
    have hz : |f.mant E P * 10 ^ (E.getD 0 - d).toNat - ((10 : ℤ) : ℚ)| ≤ 1 / 10 := by
      rw [abs_le]
      push_cast
      constructor <;> linarith [m1.1, m1.2, hP10.1, hP10.2]
    have hk := hk2 (by
      rw [abs_le] at hz
      push_cast at hz
      linarith [hz.2])
    rw [(rhe_close hz).2 (by norm_num)] at hk
    exact_mod_cast hk
  have fcase : ¬ l ≤ E.getD 0 → (presOf p = some 'f' ∨ presOf p = some 'F') ∧ E = none ∧ 0 < l := by
    intro hle
    have hff : presOf p = some 'f' ∨ presOf p = some 'F' := by
      by_contra hc
      exact hle (hf.unit_of_limit (by omega) r4 hr hE (.inl hc))
    have hE0 : E = none := by
      rw [hE]
      unfold FlOps.commonExponent
      rw [if_pos hff]
    refine ⟨hff, hE0, ?_⟩
    rw [hE0] at hle
    simpa using hle
  have fdone : ∀ hle : ¬ l ≤ E.getD 0, (1 : ℚ) ≤ k → (p.type = ['f'] ∨ p.type = ['F'] ∨ p.type = ['%']) ∧
      Shown.unit ⟨(E.getD 0 - l).toNat, (k : ℚ) / 10 ^ (E.getD 0 - l).toNat, E⟩ = 1 ∧
      1 ≤ Shown.value ⟨(E.getD 0 - l).toNat, (k : ℚ) / 10 ^ (E.getD 0 - l).toNat, E⟩ := by
    intro hle h1
    obtain ⟨hff, rfl, hl1⟩ := fcase hle
    have hpr : ((none : Option ℤ).getD 0 - l).toNat = 0 := by simp; omega
    have hun : Shown.unit ⟨((none : Option ℤ).getD 0 - l).toNat, (k : ℚ) / 10 ^ ((none : Option ℤ).getD 0 - l).toNat, none⟩ = 1 := by
      unfold Shown.unit
      rw [hpr]
      simp
    exact ⟨type_f hv hff, hun, by rw [hval, hun, mul_one]; exact h1⟩
  obtain ⟨t1, t2, -, -⟩ := hlead
  by_cases a1 : t ≤ 354
  · rw [if_pos a1] at hll
    obtain ⟨c1, c2⟩ := same 2 (by norm_num) le_rfl hll.1 hll.2
    by_cases hle : l ≤ E.getD 0
    · exact .inl ⟨k, hval _ _, fun _ => c1 hle, fun h => by omega, fun h => by omega⟩
    · exact .inr (fdone hle (c2 (fcase hle).2.1 (fcase hle).2.2))
  · rw [if_neg a1] at hll
    by_cases a2 : t ≤ 949
    · rw [if_pos a2] at hll
      obtain ⟨c1, c2⟩ := same 1 le_rfl (by norm_num) hll.1 hll.2
      by_cases hle : l ≤ E.getD 0
      · exact .inl ⟨k, hval _ _, fun h => by omega, fun _ _ => c1 hle, fun h => by omega⟩
      · exact .inr (fdone hle (c2 (fcase hle).2.1 (fcase hle).2.2))
    · rw [if_neg a2] at hll
      obtain ⟨c1, c2⟩ := power a2 hll.1 hll.2
      by_cases hle : l ≤ E.getD 0
      · refine .inl ⟨k, hval _ _, fun h => by omega, fun h => by omega, fun _ => ⟨(c1 hle).1, ?_⟩⟩
        unfold Shown.unit
        simp only []
        rw [← (c1 hle).2]
        congr 1
        omega
      · exact .inr (fdone hle (c2 (fcase hle).2.1 (fcase hle).2.2))

/-- **C76**, exponent: let `m*10**l` be the larger of the numbers, rounded at the last digit shown, and `e` its decimal
exponent.  If `m` has at most 12 digits, then the exponent is `e` in the formats `e` and `E`; in the other formats that can
have an exponent, it is used if and only if `e < -4` or `l > 0`, and it is `e`. -/
theorem C76_exponent_partial (f : FlOps) (hf : f.Sound) (x s : ℚ) (hx : InRange x) (hs : 0 < s) (hsr : InRange s)
    (spec out : Str) (p : FmtParts) (hp : parseSpec spec = some p) (ht : p.type ≠ ['f'] ∧ p.type ≠ ['F'] ∧ p.type ≠ ['%'])
    (h11 : ∀ d, p.prec = some d → digitsVal d ≤ 11) (h : f.formatU (.fin x) (.fin s) spec = .ok out) :
    ∃ n u, ∃ l m : ℤ, FaithfulFl x s out n u false ∧ n.exp = u.exp ∧ n.unit = (10 : ℚ) ^ l ∧ u.unit = (10 : ℚ) ^ l ∧
      Rounds (max |x| s) l m ∧ 1 ≤ m ∧
      (m ≤ 10 ^ 12 → ∃ e, HasExponent (m * (10 : ℚ) ^ l) e ∧
        n.exp = if (p.type = ['e'] ∨ p.type = ['E']) ∨ e < -4 ∨ 0 < l then some e else none) := by
  obtain ⟨p', hp', hv, l, S', E, k, hl, hE, hEr, hm0, hk1, hk2, hF⟩ := hf.format_displays hx hs hsr
    (fun p' d' hp' hS hd' => by
      obtain rfl : p = p' := by rw [hp] at hp'; injection hp'
      exact (h11 d' hd').trans (by norm_num)) h
  obtain rfl : p = p' := by rw [hp] at hp'; injection hp'
  obtain ⟨r1, r2, r3, r4⟩ := float_range hf hx hs hsr p
  have hff : ¬ (presOf p = some 'f' ∨ presOf p = some 'F') := fun hc => by
    rcases type_f hv hc with h | h | h
    · exact ht.1 h
    · exact ht.2.1 h
    · exact ht.2.2 h
  obtain ⟨hl0, hr⟩ := hl.ref hf r1 r2 r3 h11
  have hr := hr (.inl hff)
  have hle := hf.unit_of_limit (by omega) r4 hr hE (.inl hff)
  have hsx : f.scaled p x = x := by unfold FlOps.scaled; rw [if_neg ht.2.2]
  have hss : f.scaled p s = s := by unfold FlOps.scaled; rw [if_neg ht.2.2]
  rw [hsx, hss] at hE hr r4
  rw [hsx, decide_eq_false ht.2.2] at hF
  have hpres : (presOf p = some 'e' ∨ presOf p = some 'E') ↔ (p.type = ['e'] ∨ p.type = ['E']) := by
    unfold presOf
    rw [if_neg ht.2.2]
    rcases hv.type with h | ⟨c, hc, h⟩ <;> simp [h]
  have hun : ∀ q : ℚ, Shown.unit ⟨(E.getD 0 - l).toNat, q, E⟩ = (10 : ℚ) ^ l := by
    intro q
    unfold Shown.unit
    simp only []
    congr 1
    omega
  refine ⟨_, _, l, rhe (max |x| s / (10 : ℚ) ^ l), hF, rfl, hun _, hun _, ?_, hr, fun hm => ?_⟩
  · have hlp := ten_pos l
    have hn := rhe_near (max |x| s / (10 : ℚ) ^ l)
    unfold Rounds
    have e : max |x| s - rhe (max |x| s / (10 : ℚ) ^ l) * (10 : ℚ) ^ l =
        (max |x| s / (10 : ℚ) ^ l - rhe (max |x| s / (10 : ℚ) ^ l)) * (10 : ℚ) ^ l := by field_simp
    rw [e, abs_mul, abs_of_pos hlp]
    have := mul_le_mul_of_nonneg_right hn hlp.le
    linarith
  · refine ⟨_, (ref_exponent hr).1, ?_⟩
    show E = _
    rw [hE, hf.exponent_eq (by omega) r4 hr hm, (exponent_cases hff hr).1]
    simp only [hpres]

/-! ### Concrete cases -/

/-- Doubles, with a logarithm that can be evaluated. -/
abbrev doubles : FlOps := FlOps.double FlOps.logSharp

example : doubles.Sound := FlOps.sharp_sound
example : InRange (FlOps.rnd64 (314159 / 100000)) := .inr (by decide +kernel)
example : doubles.formatU (.fin (FlOps.rnd64 (314159 / 100000))) (.fin (FlOps.rnd64 (1 / 100))) "".toList =
    .ok "3.142+/-0.010".toList := by decide +kernel
example : doubles.formatU (.fin (FlOps.rnd64 (314159 / 100000))) (.fin (FlOps.rnd64 (97 / 100))) "%".toList =
    .ok "(314+/-100)%".toList := by decide +kernel
example : doubles.formatU (.fin (FlOps.rnd64 (314159 * 10 ^ 20))) (.fin (FlOps.rnd64 (10 ^ 22))) ".3eS".toList =
    .ok "3.142(1)e+25".toList := by decide +kernel

/-- The number of digits of the uncertainty can be one too large if there is an exponent: 0.995/10 is rounded up. -/
theorem C76_digits_fail : doubles.formatU (.fin (FlOps.rnd64 (1234 / 100))) (.fin (FlOps.rnd64 (995 / 1000))) ".2ue".toList =
    .ok "(1.234+/-0.100)e+01".toList := by decide +kernel

/-- The mantissa can be smaller than 1: `round(9.5)` is 10, so that the exponent is 1, but 0.95 is displayed as 0.9. -/
theorem C76_mantissa_below_one : doubles.formatU (.fin (FlOps.rnd64 (95 / 10))) (.fin (FlOps.rnd64 1)) ".1ue".toList =
    .ok "(0.9+/-0.1)e+01".toList := by decide +kernel

/-- The mantissa can be 10. -/
theorem C76_mantissa_ten : doubles.formatU (.fin (FlOps.rnd64 (995 / 10 ^ 23))) (.fin (FlOps.rnd64 (1 / 10 ^ 23))) ".1e".toList =
    .ok "(10.0+/-0.0)e-21".toList := by decide +kernel

/-- The logarithm of the double 999999999999999.75 is rounded to 15. -/
theorem log_rounded_up : (FlOps.double FlOps.logRounded).firstDigit (3999999999999999 / 4) = 15 := by
  show (if (3999999999999999 / 4 : ℚ) = 0 then 0 else FlOps.logRounded |3999999999999999 / 4|) = 15
  rw [if_neg (by norm_num), abs_of_pos (by norm_num)]
  have hv : (((3999999999999999 / 4 : ℚ)) : ℝ) = 3999999999999999 / 4 := by push_cast; rfl
  unfold FlOps.logRounded
  rw [hv]
  have hlog := FlOps.log10_gt
  -- the logarithm is close to 15
  have h15 : Real.logb 10 ((10 : ℝ) ^ (15 : ℤ)) = (15 : ℤ) := FlOps.logb_zpow 15
  have hlt : Real.logb 10 (3999999999999999 / 4 : ℝ) < 15 := by
    have := Real.logb_lt_logb (b := 10) (by norm_num) (by norm_num : (0 : ℝ) < 3999999999999999 / 4)
      (by norm_num : (3999999999999999 / 4 : ℝ) < (10 : ℝ) ^ (15 : ℤ))
    rw [h15] at this
    exact_mod_cast this
  have hgt : 15 - 1 / 2 ^ 51 < Real.logb 10 (3999999999999999 / 4 : ℝ) := by
    have e : Real.logb 10 ((10 : ℝ) ^ (15 : ℤ)) - Real.logb 10 (3999999999999999 / 4 : ℝ) =
        Real.log ((10 : ℝ) ^ (15 : ℤ) / (3999999999999999 / 4)) / Real.log 10 := by
      unfold Real.logb
      rw [Real.log_div (x := (10 : ℝ) ^ (15 : ℤ)) (by norm_num) (by norm_num), sub_div]
    have h1 := Real.log_le_sub_one_of_pos (by norm_num : (0 : ℝ) < (10 : ℝ) ^ (15 : ℤ) / (3999999999999999 / 4))
    have h2 : Real.log ((10 : ℝ) ^ (15 : ℤ) / (3999999999999999 / 4)) / Real.log 10 < 1 / 2 ^ 51 := by
      rw [div_lt_iff₀ (by linarith)]
      have h3 : (10 : ℝ) ^ (15 : ℤ) / (3999999999999999 / 4) - 1 < 1 / 2 ^ 51 * 2 := by norm_num
      nlinarith
    rw [h15] at e
    push_cast at e
    linarith
  generalize Real.logb 10 (3999999999999999 / 4 : ℝ) = y at hlt hgt
  have hy : (14 : ℝ) < y := by
    have : (1 : ℝ) / 2 ^ 51 < 1 := by norm_num
    linarith
  have hl2 : Int.log 2 |y| = 3 := by
    rw [abs_of_pos (by linarith)]
    apply le_antisymm
    · rw [← Int.lt_add_one_iff, ← Int.lt_zpow_iff_log_lt (by norm_num) (by linarith)]
      norm_num
      linarith
    · rw [← Int.zpow_le_iff_le_log (by norm_num) (by linarith)]
      norm_num
      linarith
  unfold FlOps.rndReal
  rw [if_neg (by linarith), hl2]
  have hr : _root_.round (y / (2 : ℝ) ^ (3 - 52 : ℤ)) = 15 * 2 ^ 49 := by
    rw [round_eq, Int.floor_eq_iff]
    have e : (2 : ℝ) ^ (3 - 52 : ℤ) = 1 / 2 ^ 49 := by norm_num
    rw [e]
    push_cast
    have h4 : y / (1 / 2 ^ 49) = y * 2 ^ 49 := by field_simp
    rw [h4]
    constructor
    · norm_num at hgt ⊢
      linarith
    · norm_num at hlt ⊢
      linarith
  rw [hr, Int.floor_eq_iff]
  norm_num

/-- With more than 12 digits, the exponent can be too large, and the mantissa smaller than 1. -/
theorem C76_exponent_fails : FlOps.rnd64 (99999999999999975 / 100) = 99999999999999975 / 100 ∧
    (FlOps.double FlOps.logRounded).formatU (.fin (99999999999999975 / 100)) (.fin (FlOps.rnd64 (1 / 10))) ".1ue".toList =
      .ok "(0.9999999999999998+/-0.0000000000000001)e+15".toList := by
  refine ⟨by decide +kernel, ?_⟩
  have hpar : parseSpec ".1ue".toList = some ⟨[], [], [], [], [], [], some "1".toList, "u".toList, ['e'], []⟩ := by
    decide +kernel
  unfold FlOps.formatU
  rw [hpar]
  simp only []
  have hx : (99999999999999975 / 100 : ℚ) = 3999999999999999 / 4 := by norm_num
  rw [hx]
  have hS : FlOps.rnd64 (1 / 10) ≠ 0 := by decide +kernel
  have hsig : (FlOps.double FlOps.logRounded).signifDgtToLimit (FlOps.rnd64 (1 / 10)) ((1 : ℕ) : ℤ) = -1 := by
    rw [FlOps.rounded_sound.signif_eq (by decide +kernel) (by decide +kernel) le_rfl (by norm_num)]
    decide +kernel
  have hround : (FlOps.double FlOps.logRounded).round (3999999999999999 / 4) 1 = 3999999999999999 / 4 := by
    show FlOps.rnd64 (pyRound (3999999999999999 / 4) 1) = _
    decide +kernel
  have hmax : max |(3999999999999999 / 4 : ℚ)| (FlOps.rnd64 (1 / 10)) = 3999999999999999 / 4 := by decide +kernel
  have e1 : (FlOps.double FlOps.logRounded).rnd (3999999999999999 / 4 * (1 / (FlOps.double FlOps.logRounded).ten 15)) =
      FlOps.rnd64 (3999999999999999 / 4 * (1 / FlOps.rnd64 (10 ^ (15 : ℤ)))) := rfl
  have e2 : (FlOps.double FlOps.logRounded).rnd (FlOps.rnd64 (1 / 10) * (1 / (FlOps.double FlOps.logRounded).ten 15)) =
      FlOps.rnd64 (FlOps.rnd64 (1 / 10) * (1 / FlOps.rnd64 (10 ^ (15 : ℤ)))) := rfl
  have hplan : (FlOps.double FlOps.logRounded).formatPlan ⟨[], [], [], [], [], [], some "1".toList, "u".toList, ['e'], []⟩
      (.fin (3999999999999999 / 4)) (.fin (FlOps.rnd64 (1 / 10))) =
      .ok ⟨.fin (FlOps.rnd64 (3999999999999999 / 4 * (1 / FlOps.rnd64 (10 ^ (15 : ℤ))))),
        .fin (FlOps.rnd64 (FlOps.rnd64 (1 / 10) * (1 / FlOps.rnd64 (10 ^ (15 : ℤ))))), some 15, 16, 'f', []⟩ := by
    rw [← e1, ← e2]
    have hd : digitsVal ['1'] = 1 := by decide
    generalize FlOps.rnd64 (1 / 10) = S at *
    have := log_rounded_up
    unfold FlOps.formatPlan FlOps.digitsLimit FlOps.commonExponent FlOps.mantissaFactor FlOps.scale
    push_cast at hsig
    simp [realValues, expRefValue, hS, hsig, hd, hround, hmax, this, bind, Except.bind, pure, Except.pure]
  rw [hplan]
  decide +kernel

end Unc
