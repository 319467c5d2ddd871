import Verif.Lemmas.FloatShown

/-! # Number of digits and exponents, with floating-point arithmetic -/

set_option autoImplicit false

namespace Unc

theorem signif_lower_unit {v : ℚ} (h : 0 < v) {n : ℕ} (hn : 1 ≤ n) :
    (10 : ℚ) ^ (n - 1) - 1 / 20 ≤ v / (10 : ℚ) ^ signifDgtToLimit v n := by
  have hs := (firstDigit_spec h.ne').1
  rw [abs_of_pos h] at hs
  set d := firstDigit v with hd
  have hL : (10 : ℚ) ^ (d - (n : ℤ) + 1) * 10 ^ (n - 1) = (10 : ℚ) ^ d := by
    rw [← zpow_natCast, ← ten_add]
    congr 1
    omega
  have hp := ten_pos (d - (n : ℤ) + 1)
  have y0 : (10 : ℚ) ^ (n - 1) ≤ v / (10 : ℚ) ^ (d - (n : ℤ) + 1) := by
    rw [le_div_iff₀ hp, mul_comm, hL]
    exact hs
  unfold signifDgtToLimit
  simp only [← hd]
  split_ifs with hc
  · have hm : (0 : ℤ) ≤ rhe (v / (10 : ℚ) ^ (d - (n : ℤ) + 1)) := rhe_nonneg (div_nonneg h.le hp.le)
    rw [pyRound_mul] at hc
    generalize hM : rhe (v / (10 : ℚ) ^ (d - (n : ℤ) + 1)) = M at hc hm
    have hM0 : (M : ℚ) ≠ 0 := by
      intro h0
      have h0' : M = 0 := by exact_mod_cast h0
      have h1 := rhe_mono y0
      rw [hM, h0'] at h1
      have h2 : rhe ((10 : ℚ) ^ (n - 1)) = 10 ^ (n - 1) := by
        have := rhe_int ((10 : ℤ) ^ (n - 1))
        rwa [Int.cast_pow] at this
      rw [h2] at h1
      have : (0 : ℤ) < 10 ^ (n - 1) := by positivity
      omega
    have hMp : (0 : ℚ) < M := lt_of_le_of_ne (by exact_mod_cast hm) (Ne.symm hM0)
    have h2 := (firstDigit_spec (mul_pos hMp hp).ne').1
    rw [abs_of_pos (mul_pos hMp hp)] at h2
    have h3 : (10 : ℚ) ^ (d + 1) ≤ M * (10 : ℚ) ^ (d - (n : ℤ) + 1) := (ten_le_iff.2 hc).trans h2
    have hL2 : (10 : ℚ) ^ (d + 1) = 10 * 10 ^ (n - 1) * (10 : ℚ) ^ (d - (n : ℤ) + 1) := by
      rw [ten_add, zpow_one, ← hL]
      ring
    rw [hL2] at h3
    have h4 := le_of_mul_le_mul_right h3 hp
    have h5 := rhe_near (v / (10 : ℚ) ^ (d - (n : ℤ) + 1))
    rw [hM, abs_le] at h5
    have h6 : v / (10 : ℚ) ^ (d - (n : ℤ) + 1 + 1) = v / (10 : ℚ) ^ (d - (n : ℤ) + 1) / 10 := by
      rw [ten_add _ 1, zpow_one, div_div]
    rw [h6]
    linarith [h5.1]
  · linarith

theorem signif_upper_unit {v : ℚ} (h : 0 < v) {n : ℕ} (hn : 1 ≤ n) : v / (10 : ℚ) ^ signifDgtToLimit v n ≤ 10 ^ n - 1 / 2 := by
  have h1 := (signif_pos h hn).2
  have h2 := abs_le.1 (rhe_near (v / (10 : ℚ) ^ signifDgtToLimit v n))
  have h3 : (rhe (v / (10 : ℚ) ^ signifDgtToLimit v n) : ℚ) ≤ 10 ^ n - 1 := by
    have : rhe (v / (10 : ℚ) ^ signifDgtToLimit v n) ≤ 10 ^ n - 1 := by omega
    have := (Int.cast_le (R := ℚ)).2 this
    rwa [Int.cast_sub, Int.cast_pow, Int.cast_one, Int.cast_ofNat] at this
  linarith [h2.2]

/-- Number of digits of a number divided by a power of ten with rounding errors. -/
theorem digits_close {y z : ℚ} {n : ℕ} (hn2 : n ≤ 12) (h : |z - y| ≤ y * (4 / 10 ^ 15)) (hy : 0 ≤ y) (h2 : y ≤ 10 ^ n - 1 / 2) :
    rhe z ≤ 10 ^ n ∧ z ≤ 10 ^ 12 ∧ ((10 : ℚ) ^ (n - 1) - 1 / 20 ≤ y → 10 ^ (n - 1) ≤ rhe z) := by
  have h12 : (10 : ℚ) ^ n ≤ 10 ^ 12 := pow_le_pow_right₀ (by norm_num) hn2
  have hd : |z - y| ≤ 4 / 1000 := h.trans (by linarith)
  rw [abs_le] at hd
  have hz := abs_le.1 (rhe_near z)
  refine ⟨?_, by linarith, fun h1 => ?_⟩
  · have h3 : (rhe z : ℚ) < 10 ^ n + 1 := by linarith
    have h4 : ((rhe z : ℤ) : ℚ) < ((10 ^ n + 1 : ℤ) : ℚ) := by push_cast; exact h3
    have := (Int.cast_lt (R := ℚ)).1 h4
    omega
  · have h3 : (10 : ℚ) ^ (n - 1) - 1 < rhe z := by linarith
    have h4 : ((10 ^ (n - 1) - 1 : ℤ) : ℚ) < ((rhe z : ℤ) : ℚ) := by push_cast; exact h3
    have := (Int.cast_lt (R := ℚ)).1 h4
    omega

namespace FlOps.Sound

variable {f : FlOps}

theorem ref_ge (hf : f.Sound) {v : ℚ} {l : ℤ} (h1 : -250 ≤ l) (hv : v ≤ (10 : ℚ) ^ (110 : ℤ)) (hr : 1 ≤ rhe (v / (10 : ℚ) ^ l)) :
    l ≤ f.firstDigit (f.round v (-l)) := by
  have hl := ten_pos l
  obtain ⟨b1, b2⟩ := round_bounds hr
  have h2v : pyRound v (-l) ≤ (10 : ℚ) ^ (111 : ℤ) :=
    b2.trans ((mul_le_mul_of_nonneg_left hv (by norm_num)).trans (ten_double (by norm_num)))
  unfold FlOps.round
  rw [pyRound_mul] at h2v ⊢
  generalize rhe (v / (10 : ℚ) ^ l) = m at *
  have hmq : (1 : ℚ) ≤ m := by exact_mod_cast hr
  have hml : (10 : ℚ) ^ l ≤ m * (10 : ℚ) ^ l := by nlinarith
  have hl2 : l ≤ 111 := ten_le_iff.1 (hml.trans h2v)
  have w := hf.rnd_bounds (q := m * (10 : ℚ) ^ l) ((ten_le_iff.2 (by omega)).trans hml) (h2v.trans (ten_le_iff.2 (by norm_num)))
  obtain ⟨w1, w2, w3⟩ := w
  have hfd : f.firstDigit (f.rnd (m * (10 : ℚ) ^ l)) = f.logFloor (f.rnd (m * (10 : ℚ) ^ l)) := by
    unfold FlOps.firstDigit
    rw [if_neg w3.ne', abs_of_pos w3]
  rw [hfd]
  rcases hr.eq_or_lt with h | h
  · rw [← h, Int.cast_one, one_mul, hf.log_pow l (by omega) (by omega)]
  · have hm2 : (2 : ℚ) ≤ m := by exact_mod_cast h
    refine hf.log_ge _ l (by omega) ?_ ?_
    · refine w2.trans ?_
      have : m * (10 : ℚ) ^ l * (1 + 1 / 10 ^ 15) ≤ 2 * (m * (10 : ℚ) ^ l) := by
        have : 0 < m * (10 : ℚ) ^ l := by positivity
        nlinarith
      exact this.trans ((mul_le_mul_of_nonneg_left h2v (by norm_num)).trans (ten_double (by norm_num)))
    · refine le_trans ?_ w1
      have : 2 * (10 : ℚ) ^ l ≤ m * (10 : ℚ) ^ l := mul_le_mul_of_nonneg_right hm2 hl.le
      nlinarith

theorem ref_eq (hf : f.Sound) {v : ℚ} {l : ℤ} (h1 : -250 ≤ l) (hv : v ≤ (10 : ℚ) ^ (110 : ℤ)) (hr : 1 ≤ rhe (v / (10 : ℚ) ^ l))
    (hr2 : rhe (v / (10 : ℚ) ^ l) ≤ 10 ^ 12) : f.firstDigit (f.round v (-l)) = Unc.firstDigit (pyRound v (-l)) := by
  have hl := ten_pos l
  obtain ⟨b1, b2⟩ := round_bounds hr
  have h2v : pyRound v (-l) ≤ (10 : ℚ) ^ (111 : ℤ) :=
    b2.trans ((mul_le_mul_of_nonneg_left hv (by norm_num)).trans (ten_double (by norm_num)))
  unfold FlOps.round
  rw [pyRound_mul] at h2v ⊢
  have hmq : (1 : ℚ) ≤ rhe (v / (10 : ℚ) ^ l) := by exact_mod_cast hr
  have hml : (10 : ℚ) ^ l ≤ rhe (v / (10 : ℚ) ^ l) * (10 : ℚ) ^ l := by nlinarith
  have hl2 : l ≤ 111 := ten_le_iff.1 (hml.trans h2v)
  exact hf.firstDigit_units hr hr2 (by omega) (by omega)

theorem exponent_eq (hf : f.Sound) {pres : Option Char} {X S : ℚ} {l : ℤ} (h1 : -250 ≤ l) (hv : max |X| S ≤ (10 : ℚ) ^ (110 : ℤ))
    (hr : 1 ≤ rhe (max |X| S / (10 : ℚ) ^ l)) (hr2 : rhe (max |X| S / (10 : ℚ) ^ l) ≤ 10 ^ 12) :
    f.commonExponent pres [|X|, S] (some l) = Unc.commonExponent pres [|X|, S] (some l) := by
  unfold FlOps.commonExponent Unc.commonExponent
  simp only [expRefValue]
  rw [hf.ref_eq h1 hv hr hr2]

theorem unit_of_limit (hf : f.Sound) {pres : Option Char} {X S : ℚ} {l : ℤ} (h1 : -250 ≤ l)
    (hv : max |X| S ≤ (10 : ℚ) ^ (110 : ℤ)) (hr : 1 ≤ rhe (max |X| S / (10 : ℚ) ^ l)) {E : Option ℤ}
    (hE : E = f.commonExponent pres [|X|, S] (some l)) (hp : ¬ (pres = some 'f' ∨ pres = some 'F') ∨ l ≤ 0) : l ≤ E.getD 0 := by
  have hge := hf.ref_ge h1 hv hr
  unfold FlOps.commonExponent at hE
  simp only [expRefValue] at hE
  by_cases hpf : pres = some 'f' ∨ pres = some 'F'
  · rw [if_pos hpf] at hE
    rw [hE]
    rcases hp with hp | hp
    · exact absurd hpf hp
    · simpa using hp
  · rw [if_neg hpf] at hE
    by_cases hpe : pres = some 'e' ∨ pres = some 'E'
    · rw [if_pos hpe] at hE
      rw [hE]
      exact hge
    · rw [if_neg hpe] at hE
      by_cases hc : -4 ≤ f.firstDigit (f.round (max |X| S) (-l)) ∧
          f.firstDigit (f.round (max |X| S) (-l)) < f.firstDigit (f.round (max |X| S) (-l)) - l + 1
      · rw [if_pos hc] at hE
        rw [hE]
        simp
        omega
      · rw [if_neg hc] at hE
        rw [hE]
        exact hge

/-- The number of units of the last digit in a mantissa. -/
theorem mant_units (hf : f.Sound) {q : ℚ} {E : Option ℤ} (hE : ∀ e ∈ E, -115 ≤ e ∧ e ≤ 115)
    (hq : q = 0 ∨ (10 : ℚ) ^ (-105 : ℤ) ≤ |q| ∧ |q| ≤ (10 : ℚ) ^ (105 : ℤ)) {l : ℤ} (hl : l ≤ E.getD 0) :
    |f.mant E q * 10 ^ (E.getD 0 - l).toNat - q / (10 : ℚ) ^ l| ≤ |q / (10 : ℚ) ^ l| * (4 / 10 ^ 15) ∧
      (E = none → f.mant E q * 10 ^ (E.getD 0 - l).toNat = q / (10 : ℚ) ^ l) := by
  have h := hf.mant_near hE hq
  have hlp := ten_pos l
  have e1 : (10 : ℚ) ^ (E.getD 0 - l).toNat = (10 : ℚ) ^ E.getD 0 / (10 : ℚ) ^ l := by
    rw [← zpow_natCast, Int.toNat_of_nonneg (by omega), ten_sub]
  constructor
  · rw [e1, ← mul_div_assoc, ← sub_div, abs_div, abs_div, abs_of_pos hlp, div_mul_eq_mul_div]
    exact div_le_div_of_nonneg_right h hlp.le
  · rintro rfl
    rw [e1]
    simp only [mant, Option.getD_none, zpow_zero]
    ring

/-- The number of digits of the uncertainty. -/
theorem shown_digits (hf : f.Sound) {w : ℚ} (h1 : (10 : ℚ) ^ (-105 : ℤ) ≤ w) (h2 : w ≤ (10 : ℚ) ^ (105 : ℤ)) {N : ℕ} (hN : 1 ≤ N)
    (hN2 : N ≤ 12) {l : ℤ} (hl : l = Unc.signifDgtToLimit w N) {E : Option ℤ} (hE : ∀ e ∈ E, -115 ≤ e ∧ e ≤ 115) {k : ℕ}
    (hk1 : |(k : ℚ) - f.mant E w * 10 ^ (E.getD 0 - l).toNat| ≤ 1 / 2 + f.mant E w * 10 ^ (E.getD 0 - l).toNat * (3 / 10 ^ 14))
    (hk2 : f.mant E w * 10 ^ (E.getD 0 - l).toNat ≤ 10 ^ 12 → (k : ℤ) = rhe (f.mant E w * 10 ^ (E.getD 0 - l).toNat)) :
    (l ≤ E.getD 0 → HasDigits k N ∨ k = 10 ^ N ∧ E ≠ none) ∧ (E = none → 0 < l → (10 : ℚ) ^ (N - 1) ≤ k) := by
  have hw : 0 < w := (ten_pos _).trans_le h1
  have hlp := ten_pos l
  have hy1 := signif_lower_unit hw hN
  have hy2 := signif_upper_unit hw hN
  rw [← hl] at hy1 hy2
  have hy0 : 0 ≤ w / (10 : ℚ) ^ l := div_nonneg hw.le hlp.le
  constructor
  · intro hle
    obtain ⟨m1, m2⟩ := hf.mant_units hE (.inr (by rw [abs_of_pos hw]; exact ⟨h1, h2⟩)) hle
    rw [abs_of_nonneg hy0] at m1
    obtain ⟨d1, d2, d3⟩ := digits_close hN2 m1 hy0 hy2
    have hk := hk2 d2
    have d3 := d3 hy1
    rw [← hk] at d1 d3
    have d1' : k ≤ 10 ^ N := by exact_mod_cast d1
    have d3' : 10 ^ (N - 1) ≤ k := by exact_mod_cast d3
    by_cases hE0 : E = none
    · left
      rw [m2 hE0, hl] at hk
      rw [hk]
      exact signif_hasDigits hw hN
    · rcases d1'.eq_or_lt with h | h
      · exact .inr ⟨h, hE0⟩
      · exact .inl ⟨by simpa using d3', by simpa using h⟩
  · rintro rfl hl0
    have hpr : ((none : Option ℤ).getD 0 - l).toNat = 0 := by simp; omega
    rw [hpr] at hk1
    simp only [mant, pow_zero, mul_one] at hk1
    have h7 : (10 : ℚ) ≤ (10 : ℚ) ^ l := by
      calc (10 : ℚ) = (10 : ℚ) ^ (1 : ℤ) := by norm_num
        _ ≤ (10 : ℚ) ^ l := ten_le_iff.2 (by omega)
    have hone : (1 : ℚ) ≤ 10 ^ (N - 1) := one_le_pow₀ (by norm_num)
    have h8 : ((10 : ℚ) ^ (N - 1) - 1 / 20) * 10 ≤ w := by
      rw [le_div_iff₀ hlp] at hy1
      refine le_trans (mul_le_mul_of_nonneg_left h7 ?_) hy1
      linarith
    rw [abs_le] at hk1
    linarith [hk1.1]

theorem signif_pow (hf : f.Sound) {P : ℚ} {d : ℤ} (h1 : -110 ≤ d) (h2 : d ≤ 110) (hP : Within (4 / 10 ^ 15) P ((10 : ℚ) ^ (d + 1))) :
    f.signifDgtToLimit P 2 = d ∧ Unc.signifDgtToLimit P (2 : ℕ) = d := by
  have hp := ten_pos (d + 1)
  obtain ⟨p1, p2⟩ := hP
  have hP0 : 0 < P := by nlinarith
  have r1 : (10 : ℚ) ^ d ≤ P := by
    have : (10 : ℚ) ^ (d + 1) = (10 : ℚ) ^ d * 10 := by rw [ten_add, zpow_one]
    have := ten_pos d
    nlinarith
  have r2 : P < (10 : ℚ) ^ (d + 2) := by
    have : (10 : ℚ) ^ (d + 2) = (10 : ℚ) ^ (d + 1) * 10 := by rw [show d + 2 = d + 1 + 1 by ring, ten_add, zpow_one]
    nlinarith
  have key : Unc.signifDgtToLimit P (2 : ℕ) = d := by
    by_cases hc : (10 : ℚ) ^ (d + 1) ≤ P
    · have hfd : Unc.firstDigit P = d + 1 := firstDigit_eq ⟨by rw [abs_of_pos hP0]; exact hc, by rw [abs_of_pos hP0]; rw [add_assoc]; exact r2⟩
      have hrd : rhe (P / (10 : ℚ) ^ d) = 10 := by
        have e : (10 : ℚ) ^ (d + 1) = (10 : ℚ) ^ d * 10 := by rw [ten_add, zpow_one]
        have hd := ten_pos d
        refine (rhe_close (m := 10) (δ := 1 / 10) ?_).2 (by norm_num)
        have e2 : P / (10 : ℚ) ^ d - (10 : ℤ) = (P - (10 : ℚ) ^ d * 10) / (10 : ℚ) ^ d := by
          push_cast
          field_simp
        rw [e2, abs_div, abs_of_pos hd, div_le_iff₀ hd, abs_le]
        rw [e] at p1 p2
        constructor <;> nlinarith
      unfold Unc.signifDgtToLimit
      simp only [hfd]
      have e1 : d + 1 - ((2 : ℕ) : ℤ) + 1 = d := by push_cast; ring
      rw [e1, pyRound_mul, hrd]
      have hfr : Unc.firstDigit (((10 : ℤ) : ℚ) * (10 : ℚ) ^ d) = d + 1 := by
        have e : ((10 : ℤ) : ℚ) * (10 : ℚ) ^ d = (10 : ℚ) ^ (d + 1) := by rw [ten_add, zpow_one]; push_cast; ring
        rw [e]
        refine firstDigit_eq ⟨by rw [abs_of_pos hp], ?_⟩
        rw [abs_of_pos hp]
        exact ten_lt_iff.2 (by omega)
      rw [hfr, if_neg (by omega)]
    · have hfd : Unc.firstDigit P = d := firstDigit_eq ⟨by rw [abs_of_pos hP0]; exact r1, by rw [abs_of_pos hP0]; exact not_le.1 hc⟩
      have hrd : rhe (P / (10 : ℚ) ^ (d - 1)) = 100 := by
        have e : (10 : ℚ) ^ (d + 1) = (10 : ℚ) ^ (d - 1) * 100 := by
          rw [show d + 1 = d - 1 + 2 by ring, ten_add]; norm_num
        have hd := ten_pos (d - 1)
        refine (rhe_close (m := 100) (δ := 1 / 10) ?_).2 (by norm_num)
        have e2 : P / (10 : ℚ) ^ (d - 1) - (100 : ℤ) = (P - (10 : ℚ) ^ (d - 1) * 100) / (10 : ℚ) ^ (d - 1) := by
          push_cast
          field_simp
        rw [e2, abs_div, abs_of_pos hd, div_le_iff₀ hd, abs_le]
        rw [e] at p1 p2
        constructor <;> nlinarith
      unfold Unc.signifDgtToLimit
      simp only [hfd]
      have e1 : d - ((2 : ℕ) : ℤ) + 1 = d - 1 := by push_cast; ring
      rw [e1, pyRound_mul, hrd]
      have hfr : Unc.firstDigit (((100 : ℤ) : ℚ) * (10 : ℚ) ^ (d - 1)) = d + 1 := by
        have e : ((100 : ℤ) : ℚ) * (10 : ℚ) ^ (d - 1) = (10 : ℚ) ^ (d + 1) := by
          rw [show d + 1 = d - 1 + 2 by ring, ten_add]
          push_cast
          norm_num
          ring
        rw [e]
        refine firstDigit_eq ⟨by rw [abs_of_pos hp], ?_⟩
        rw [abs_of_pos hp]
        exact ten_lt_iff.2 (by omega)
      rw [hfr, if_pos (by omega)]
      ring
  refine ⟨?_, key⟩
  have := hf.signif_eq (v := P) ((ten_le_iff.2 (by omega)).trans r1) (r2.le.trans (ten_le_iff.2 (by omega))) (n := 2) (by norm_num) (by norm_num)
  rw [key] at this
  exact this

/-- The position of the last digit when at most 12 digits are requested. -/
theorem _root_.Unc.LimitFl.ref_twelve (hf : f.Sound) {p : FmtParts} {pres : Option Char} {X S : ℚ} {l : ℤ} {S' : ℚ}
    (h : LimitFl f p pres X S l S') (h1 : (10 : ℚ) ^ (-100 : ℤ) ≤ S) (h2 : S ≤ (10 : ℚ) ^ (103 : ℤ)) (hX : |X| ≤ (10 : ℚ) ^ (103 : ℤ))
    (hd : ∀ d, p.prec = some d → digitsVal d ≤ 11 ∨ digitsVal d ≤ 12 ∧ ¬ (pres = some 'e' ∨ pres = some 'E')) :
    -130 ≤ l ∧ (¬ (pres = some 'f' ∨ pres = some 'F') ∨ p.prec = none ∨ p.uncertPrec ≠ [] → 1 ≤ rhe (max |X| S / (10 : ℚ) ^ l)) := by
  have hS : 0 < S := (ten_pos _).trans_le h1
  have hv2 : max |X| S ≤ (10 : ℚ) ^ (103 : ℤ) := max_le hX h2
  have hv1 : (10 : ℚ) ^ (-100 : ℤ) ≤ max |X| S := h1.trans (le_max_right _ _)
  -- from a lower bound
  have one : ∀ {v : ℚ} {n : ℕ}, (10 : ℚ) ^ (-101 : ℤ) ≤ v → v ≤ (10 : ℚ) ^ (104 : ℤ) → 1 ≤ n → n ≤ 12 →
      f.signifDgtToLimit v n = Unc.signifDgtToLimit v n ∧ -130 ≤ f.signifDgtToLimit v n ∧
        1 ≤ rhe (v / (10 : ℚ) ^ f.signifDgtToLimit v n) := by
    intro v n a1 a2 hn hn2
    have hv0 : 0 < v := (ten_pos _).trans_le a1
    have e := hf.signif_eq ((ten_le_iff.2 (by norm_num)).trans a1) (a2.trans (ten_le_iff.2 (by norm_num))) hn hn2
    have g := hf.signif_ge (a := -101) (b := 104) (by norm_num) (by norm_num) a1 a2 n
    refine ⟨e, by omega, ?_⟩
    rw [e]
    have := (signif_pos hv0 hn).1
    have h0 : (0 : ℤ) < 10 ^ (n - 1) := by positivity
    omega
  have mono : ∀ l : ℤ, rhe (S / (10 : ℚ) ^ l) ≤ rhe (max |X| S / (10 : ℚ) ^ l) := fun l =>
    rhe_mono (div_le_div_of_nonneg_right (le_max_right _ _) (ten_pos l).le)
  have s1 : (10 : ℚ) ^ (-101 : ℤ) ≤ S := (ten_le_iff.2 (by norm_num)).trans h1
  have s2 : S ≤ (10 : ℚ) ^ (104 : ℤ) := h2.trans (ten_le_iff.2 (by norm_num))
  cases h with
  | digits d hd' hu hpos =>
    have := hd d hd'
    obtain ⟨-, o1, o2⟩ := one s1 s2 hpos (by omega)
    exact ⟨o1, fun _ => o2.trans (mono _)⟩
  | fixed d hd' hu hff =>
    have := hd d hd'
    refine ⟨by omega, ?_⟩
    rintro (h | h | h)
    · exact absurd hff h
    · rw [hd'] at h; cases h
    · exact absurd hu h
  | float d hd' hu hff n hn =>
    have := hd d hd'
    obtain ⟨-, o1, o2⟩ := one (v := max |X| S) (n := n) ((ten_le_iff.2 (by norm_num)).trans hv1)
      (hv2.trans (ten_le_iff.2 (by norm_num))) (by rw [hn]; split_ifs <;> omega) (by
        rw [hn]
        split_ifs with he
        · rcases this with h | ⟨-, h⟩
          · omega
          · exact absurd he h
        · omega
        · omega)
    exact ⟨o1, fun _ => o2⟩
  | pdg hd' =>
    obtain ⟨v, t, d, P, hv, hl, hP, he⟩ := hf.pdg_cases ((ten_le_iff.2 (by norm_num)).trans h1) (h2.trans (ten_le_iff.2 (by norm_num)))
    rw [he]
    by_cases t1 : t ≤ 354
    · rw [if_pos t1]
      obtain ⟨-, o1, o2⟩ := one s1 s2 (n := 2) (by norm_num) (by norm_num)
      exact ⟨o1, fun _ => o2.trans (mono _)⟩
    · rw [if_neg t1]
      by_cases t2 : t ≤ 949
      · rw [if_pos t2]
        obtain ⟨-, o1, o2⟩ := one s1 s2 (n := 1) (by norm_num) (by norm_num)
        exact ⟨o1, fun _ => o2.trans (mono _)⟩
      · rw [if_neg t2]
        simp only []
        have hT := ten_pos (d + 1)
        obtain ⟨l1, l2, l3, l4⟩ := hl
        have hd2 : (10 : ℚ) ^ (d + 1) = (10 : ℚ) ^ (d - 2) * 1000 := by
          rw [show d + 1 = d - 2 + 3 by ring, ten_add]; norm_num
        have hd3 := ten_pos (d - 2)
        have ht1 : (950 : ℚ) ≤ t := by exact_mod_cast (by omega : 950 ≤ t)
        have ht2 : (t : ℚ) ≤ 999 := by exact_mod_cast l2
        have q1 : (10 : ℚ) ^ (d - 2) * 900 ≤ S ∧ S ≤ (10 : ℚ) ^ (d - 2) * 1001 := by
          generalize (10 : ℚ) ^ (d - 2) = D at *
          rw [abs_le] at hv
          have g1 : 950 * D ≤ t * D := mul_le_mul_of_nonneg_right ht1 hd3.le
          have g2 : ((t : ℚ) + 1) * D ≤ 1000 * D := mul_le_mul_of_nonneg_right (by linarith) hd3.le
          constructor <;> linarith [hv.1, hv.2]
        have hdr : -110 ≤ d ∧ d ≤ 110 := by
          constructor
          · have : (10 : ℚ) ^ (-100 : ℤ) ≤ (10 : ℚ) ^ (d + 2) := by
              refine h1.trans (q1.2.trans ?_)
              rw [show d + 2 = d - 2 + 4 by ring, ten_add]
              refine mul_le_mul_of_nonneg_left (by norm_num) hd3.le
            have := ten_le_iff.1 this
            omega
          · have : (10 : ℚ) ^ (d - 2) ≤ (10 : ℚ) ^ (103 : ℤ) := by
              refine le_trans ?_ (q1.1.trans h2)
              nlinarith
            have := ten_le_iff.1 this
            omega
        obtain ⟨e1, e2⟩ := hf.signif_pow hdr.1 hdr.2 hP
        have e3 : f.signifDgtToLimit P ((2 : ℕ) : ℤ) = d := e1
        rw [e3]
        refine ⟨by omega, fun _ => ?_⟩
        refine le_trans ?_ (mono _)
        have : (9 : ℚ) ≤ S / (10 : ℚ) ^ d := by
          rw [le_div_iff₀ (ten_pos d)]
          refine le_trans (le_of_eq ?_) q1.1
          rw [show d = d - 2 + 2 by ring, ten_add]
          norm_num
          ring
        have h9 : rhe ((9 : ℤ) : ℚ) = 9 := rhe_int 9
        have := rhe_mono this
        push_cast at h9
        rw [h9] at this
        omega

theorem _root_.Unc.LimitFl.ref (hf : f.Sound) {p : FmtParts} {pres : Option Char} {X S : ℚ} {l : ℤ} {S' : ℚ}
    (h : LimitFl f p pres X S l S') (h1 : (10 : ℚ) ^ (-100 : ℤ) ≤ S) (h2 : S ≤ (10 : ℚ) ^ (103 : ℤ)) (hX : |X| ≤ (10 : ℚ) ^ (103 : ℤ))
    (hd : ∀ d, p.prec = some d → digitsVal d ≤ 11) :
    -130 ≤ l ∧ (¬ (pres = some 'f' ∨ pres = some 'F') ∨ p.prec = none ∨ p.uncertPrec ≠ [] → 1 ≤ rhe (max |X| S / (10 : ℚ) ^ l)) :=
  h.ref_twelve hf h1 h2 hX fun d hd' => .inl (hd d hd')

end FlOps.Sound

end Unc
