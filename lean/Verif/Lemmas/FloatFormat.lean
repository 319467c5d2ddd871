import Verif.Lemmas.FloatDigits
import Verif.Lemmas.Total

/-! # Strings made with floating-point arithmetic -/

set_option autoImplicit false

namespace Unc

theorem rhe_close {z δ : ℚ} {m : ℤ} (h : |z - m| ≤ δ) : |(rhe z : ℚ) - m| ≤ 2 * δ ∧ (δ < 1 / 2 → rhe z = m) := by
  have hn := rhe_near z
  rw [abs_le] at h hn
  have hsmall : δ < 1 / 2 → rhe z = m := by
    intro hd
    have h1 : (m : ℚ) - 1 < rhe z := by linarith
    have h2 : (rhe z : ℚ) < m + 1 := by linarith
    have h1' : m - 1 < rhe z := by exact_mod_cast h1
    have h2' : rhe z < m + 1 := by exact_mod_cast h2
    omega
  refine ⟨?_, hsmall⟩
  by_cases hd : δ < 1 / 2
  · rw [hsmall hd]
    simp
    linarith
  · rw [abs_le]
    constructor <;> linarith

theorem ten_double {a b : ℤ} (h : a < b) : 2 * (10 : ℚ) ^ a ≤ (10 : ℚ) ^ b := by
  have h1 : (10 : ℚ) ^ (a + 1) ≤ (10 : ℚ) ^ b := ten_le_iff.2 h
  rw [ten_add, zpow_one] at h1
  have := ten_pos a
  linarith

theorem ten_half {a b : ℤ} (h : a < b) : (10 : ℚ) ^ a ≤ (10 : ℚ) ^ b / 2 := by
  have := ten_double h
  linarith

/-- The digits between the parentheses of the shorthand notation. -/
theorem bracket_explicit {prec : ℕ} (hp : 0 < prec) (k : ℕ) (e : Option ℤ) :
    Bracket prec ((fixedParts k prec).1 ++ (fixedParts k prec).2) ⟨prec, (k : ℚ) / 10 ^ prec, e⟩ := by
  have hval := digitsVal_fixed prec k
  refine .explicit _ _ _ _ _ hp ⟨[], natStr (k / 10 ^ prec), padDigits prec k, ?_, .inl rfl, fun c hc => .inl (natStr_digits _ c hc), ?_,
    padDigits_digits _ _, padDigits_length _ _, ?_⟩
  · unfold fixedParts
    rw [if_neg (by omega), List.nil_append]
  · obtain ⟨c, hc⟩ := List.exists_mem_of_ne_nil _ (natStr_ne (k / 10 ^ prec))
    exact ⟨c, hc, natStr_digits _ c hc⟩
  · rw [List.filter_eq_self.2 (natStr_digits _), hval]
    simp [signVal]

/-- The text between the parentheses of the shorthand notation, for an uncertainty of `k` units of the last digit. -/
inductive BracketForm (prec k : ℕ) : Str → Prop
  | explicit (h : 0 < prec) : BracketForm prec k ((fixedParts k prec).1 ++ (fixedParts k prec).2)
  | units (h : (k : ℚ) ≤ (10 : ℚ) ^ (285 : ℤ)) : BracketForm prec k (natStr k)
  | zero (h : prec = 0) (hk : k = 0) : BracketForm prec k "0.".toList

theorem BracketForm.bracket {prec k : ℕ} {U : Str} (h : BracketForm prec k U) (e : Option ℤ) :
    Bracket prec U ⟨prec, (k : ℚ) / 10 ^ prec, e⟩ := by
  cases h with
  | explicit h => exact bracket_explicit h k e
  | units h =>
    have hb := Bracket.units prec (natStr k) e (natStr_digits _) (natStr_ne _)
    rw [digitsVal_natStr] at hb
    exact hb
  | zero h hk =>
    subst h
    subst hk
    have := Bracket.zero 0 e
    simpa using this

namespace FlOps

variable {f : FlOps}

theorem formatShorthand_displays {p : FmtParts} (hv : p.Valid) {q u : ℚ} (hu : u ≠ 0) {t : Char} (ht : t = 'f' ∨ t = 'F')
    {e : Option ℤ} {prec : ℕ} {options out : Str}
    (h : f.formatShorthand (.fin q) (.fin u) e p prec t options = .ok out) :
    ∃ U, f.shorthandUncert u prec = .ok U ∧ ∀ k, Bracket prec U ⟨prec, k, e⟩ →
      Displays out ⟨prec, pyRound q prec, e⟩ ⟨prec, k, e⟩ (decide ('%' ∈ options)) := by
  have hse : specialError (.fin u) = false := by simp [specialError, FNum.truthy, FNum.isInfinite, hu]
  have hN : fmtSuffixN (.fin u) p prec t = fixedSuffix prec t := by simp [fmtSuffixN, hse]
  have hlN : ∀ s, latexNom options (.fin q) s = s := by intro s; simp [latexNom]
  have hs := sign_head hv
  have f1 := fun z => pyFormat_fixed q _ hs z (decide (p.comma ≠ [])) prec ht
  unfold FlOps.formatShorthand at h
  obtain ⟨U, hU, h⟩ := bind_ok h
  have hU' : f.shorthandUncert u prec = .ok U := by
    unfold FlOps.uncertStr at hU
    simp only [if_neg hu] at hU
    exact hU
  refine ⟨U, hU', fun k hk => ?_⟩
  simp only [hN, hlN] at h
  have ha : '(' :: U ++ ')' :: expStr e t options ++ percentStr options =
      '(' :: (U ++ ')' :: (expStr e t options ++ percentStr options)) := by simp
  rw [ha] at h
  have hf : pyFormat (.fin q) ((if p.zero ≠ [] ∧ p.width ≠ [] then p.sign ++ p.zero ++ natStr (digitsVal p.width -
      ('(' :: (U ++ ')' :: (expStr e t options ++ percentStr options))).length) ++ p.comma
      else p.sign ++ p.comma) ++ fixedSuffix prec t) =
      .ok (fixedStr q p.sign.head? (zeroWidth p ('(' :: (U ++ ')' :: (expStr e t options ++
        percentStr options))).length) (p.comma ≠ []) prec t) := by
    unfold zeroWidth
    by_cases hz : p.zero ≠ [] ∧ p.width ≠ []
    · rw [if_pos hz, if_pos hz.symm, prefix_zero hv hz.1, f1]
    · rw [if_neg hz, if_neg (fun h => hz h.symm), prefix_plain hv, f1]
  rw [hf] at h
  obtain ⟨N, hN', h⟩ := bind_ok h
  injection hN' with hN'
  have hpad : ∃ c i j, out = List.replicate i c ++ (N ++ '(' :: (U ++ ')' :: (expStr e t options ++ percentStr options))) ++
      List.replicate j c := by
    by_cases hw : p.width ≠ []
    · rw [if_pos hw] at h
      obtain ⟨⟨i, j, h⟩, -⟩ := robustAlign_ok h
      exact ⟨_, i, j, h⟩
    · rw [if_neg hw] at h
      injection h with h
      exact ⟨' ', 0, 0, by simp [h]⟩
  obtain ⟨c, i, j, rfl⟩ := hpad
  have hNf : Fixed N prec (pyRound q prec) := by
    rw [← hN']
    exact fixedStr_fixed q p.sign.head? _ (p.comma ≠ []) prec ht
  have hx := expStr_opt e ht options
  rcases percentStr_cases options with ⟨h3, h4, h5⟩ | ⟨h3, h4⟩
  · rw [decide_eq_true h3]
    have := Displays.shorthandPercent _ _ _ _ ⟨prec, pyRound q prec, e⟩ ⟨prec, k, e⟩ c i j hNf hk hx rfl h4
    simpa using this
  · rw [decide_eq_false h3, h4, List.append_nil]
    exact Displays.shorthand _ _ _ ⟨prec, pyRound q prec, e⟩ ⟨prec, k, e⟩ c i j hNf hk hx rfl

theorem Sound.shorthand_form (hf : f.Sound) {u : ℚ} (h1 : (10 : ℚ) ^ (-230 : ℤ) ≤ u) (h2 : u ≤ (10 : ℚ) ^ (230 : ℤ)) {prec : ℕ}
    (hp : prec ≤ 270) {U : Str} (h : f.shorthandUncert u prec = .ok U) :
    ∃ k : ℕ, BracketForm prec k U ∧
      |(k : ℚ) - u * 10 ^ prec| ≤ 1 / 2 + u * 10 ^ prec * (3 / 10 ^ 14) ∧
      (u * 10 ^ prec ≤ 10 ^ 12 → (k : ℤ) = rhe (u * 10 ^ prec)) := by
  have hu : 0 < u := (ten_pos _).trans_le h1
  have hpp : (0 : ℚ) < 10 ^ prec := by positivity
  have hzp : (10 : ℚ) ^ (prec : ℤ) = 10 ^ prec := zpow_natCast _ _
  set y : ℚ := u * 10 ^ prec with hy
  have hy0 : 0 < y := mul_pos hu hpp
  have hm0 : 0 ≤ rhe y := rhe_nonneg hy0.le
  have hnear := rhe_near y
  have hround : pyRound u prec = (rhe y : ℚ) / 10 ^ prec := by unfold pyRound; rw [hzp]
  unfold FlOps.shorthandUncert FlOps.round at h
  rw [hround] at h
  simp only [] at h
  rcases hm0.eq_or_lt with hm | hm
  · -- rounded to zero
    rw [← hm] at h hnear
    simp only [Int.cast_zero, zero_div, hf.rnd_zero, abs_zero, zero_mul, lt_irrefl, if_false, List.nil_append, ne_eq, not_true_eq_false] at h
    have hr0 : rhe 0 = 0 := by decide +kernel
    have hfd : f.firstDigit 0 = 0 := by unfold FlOps.firstDigit; rw [if_pos rfl]
    refine ⟨0, ?_, ?_, fun _ => hm⟩
    · by_cases hp0 : 0 < prec
      · rw [hfd, if_pos ⟨le_rfl, hp0⟩, hr0] at h
        injection h with h
        rw [← h]
        exact .explicit hp0
      · rw [if_neg (fun h => hp0 h.2)] at h
        injection h with h
        rw [← h]
        exact .zero (by omega) rfl
    · rw [Int.cast_zero, abs_sub_comm] at hnear
      rw [Nat.cast_zero]
      have : 0 ≤ y * (3 / 10 ^ 14) := by positivity
      linarith
  · have hm1 : 1 ≤ rhe y := hm
    obtain ⟨m, hmn⟩ : ∃ m : ℕ, (m : ℤ) = rhe y := ⟨(rhe y).toNat, Int.toNat_of_nonneg hm0⟩
    have hmq : (1 : ℚ) ≤ (rhe y : ℚ) := by exact_mod_cast hm1
    have hm2 : (rhe y : ℚ) ≤ 2 * y := by rw [abs_le] at hnear; linarith [hnear.1]
    have hm3 : y / 2 ≤ (rhe y : ℚ) := by
      rw [abs_le] at hnear
      by_cases h0 : y ≤ 1
      · linarith
      · linarith [hnear.2]
    set r : ℚ := (rhe y : ℚ) / 10 ^ prec with hr
    have hrm : r * 10 ^ prec = rhe y := by rw [hr]; field_simp
    have r1 : u / 2 ≤ r := by rw [hr, le_div_iff₀ hpp]; rw [hy] at hm3; linarith
    have r2 : r ≤ 2 * u := by rw [hr, div_le_iff₀ hpp]; rw [hy] at hm2; linarith
    have rl : (10 : ℚ) ^ (-299 : ℤ) ≤ r := (ten_half (by norm_num)).trans ((div_le_div_of_nonneg_right h1 (by norm_num)).trans r1)
    have ru : r ≤ (10 : ℚ) ^ (299 : ℤ) := r2.trans ((mul_le_mul_of_nonneg_left h2 (by norm_num)).trans (ten_double (by norm_num)))
    have hr0 : 0 < r := (ten_pos _).trans_le rl
    have w := hf.within_rnd (Within.refl (b := r)) le_rfl (by norm_num) rl ru
    generalize f.rnd r = ρ at w h
    have hρ : 0 < ρ := by have := w.1; nlinarith
    rw [abs_of_pos hρ, if_neg (not_lt.2 hρ.le), List.nil_append] at h
    -- from the difference with the rounded value
    have fin : ∀ z : ℚ, |z - (rhe y : ℚ)| ≤ (rhe y : ℚ) * (6 / 10 ^ 15) → 0 ≤ z →
        ∃ k : ℕ, (k : ℤ) = rhe z ∧ |(k : ℚ) - y| ≤ 1 / 2 + y * (3 / 10 ^ 14) ∧ (y ≤ 10 ^ 12 → (k : ℤ) = rhe y) := by
      intro z hz hz0
      obtain ⟨c1, c2⟩ := rhe_close hz
      obtain ⟨k, hk⟩ : ∃ k : ℕ, (k : ℤ) = rhe z := ⟨_, Int.toNat_of_nonneg (rhe_nonneg hz0)⟩
      have hkq : (k : ℚ) = rhe z := by exact_mod_cast congrArg (Int.cast : ℤ → ℚ) hk
      refine ⟨k, hk, ?_, fun h12 => ?_⟩
      · rw [hkq]
        rw [abs_le] at c1 hnear ⊢
        constructor <;> linarith [c1.1, c1.2, hnear.1, hnear.2]
      · rw [hk]
        refine c2 ?_
        have : (rhe y : ℚ) ≤ 2 * 10 ^ 12 := by linarith
        nlinarith
    by_cases hb : 0 ≤ f.firstDigit ρ ∧ 0 < prec
    · rw [if_pos hb] at h
      injection h with h
      have hz : |ρ * 10 ^ prec - (rhe y : ℚ)| ≤ (rhe y : ℚ) * (6 / 10 ^ 15) := by
        have := (w.mul hpp).abs
        rw [hrm] at this
        linarith
      obtain ⟨k, hk, g1, g2⟩ := fin _ hz (by positivity)
      refine ⟨k, ?_, g1, g2⟩
      rw [← h, ← hk, Int.natAbs_natCast]
      exact .explicit hb.2
    · rw [if_neg hb, if_pos hρ.ne', if_neg (by omega)] at h
      injection h with h
      have hrange : (rhe y : ℚ) ≤ (10 : ℚ) ^ (280 : ℤ) := by
        by_cases hp0 : prec = 0
        · rw [← hrm, hp0, pow_zero, mul_one]
          exact r2.trans ((mul_le_mul_of_nonneg_left h2 (by norm_num)).trans (ten_double (by norm_num)))
        · have hneg : f.firstDigit ρ < 0 := by
            by_contra hc
            exact hb ⟨not_lt.1 hc, by omega⟩
          have hlt : ρ < 1 := by
            by_contra hc
            have h0 := hf.log_ge ρ 0 (by norm_num) ?_ (by rw [zpow_zero]; exact not_lt.1 hc)
            · unfold FlOps.firstDigit at hneg
              rw [if_neg hρ.ne', abs_of_pos hρ] at hneg
              omega
            · have h3 : r * (1 + (0 + 2 / 10 ^ 15)) ≤ 2 * r := by nlinarith
              exact w.2.trans (h3.trans ((mul_le_mul_of_nonneg_left ru (by norm_num)).trans (ten_double (by norm_num))))
          have hr2 : r ≤ 2 := by have := w.1; nlinarith
          rw [← hrm]
          have hp270 : (10 : ℚ) ^ prec ≤ (10 : ℚ) ^ (270 : ℤ) := by
            rw [← hzp]; exact ten_le_iff.2 (by omega)
          calc r * 10 ^ prec ≤ 2 * 10 ^ prec := mul_le_mul_of_nonneg_right hr2 hpp.le
            _ ≤ 2 * (10 : ℚ) ^ (270 : ℤ) := mul_le_mul_of_nonneg_left hp270 (by norm_num)
            _ ≤ (10 : ℚ) ^ (280 : ℤ) := ten_double (by norm_num)
      have w2 := hf.within_mul_ten w hr0.le (by norm_num) (by norm_num) (e := (prec : ℤ)) (by omega) (by omega)
      rw [hzp, hrm] at w2
      have w3 := hf.within_rnd w2 (by norm_num) (by norm_num)
        (le_trans (by rw [show (1 : ℚ) = (10 : ℚ) ^ (0 : ℤ) by norm_num]; exact ten_le_iff.2 (by norm_num)) hmq) (hrange.trans (ten_le_iff.2 (by norm_num)))
      have hz : |f.rnd (ρ * f.ten prec) - (rhe y : ℚ)| ≤ (rhe y : ℚ) * (6 / 10 ^ 15) := by
        have := w3.abs
        linarith
      obtain ⟨k, hk, g1, g2⟩ := fin _ hz (by have := w3.1; nlinarith)
      refine ⟨k, ?_, g1, g2⟩
      rw [← h, ← hk]
      have : intStr (k : ℤ) = natStr k := by
        unfold intStr
        rw [if_neg (by omega), Int.natAbs_natCast]
      rw [this]
      refine .units ?_
      rw [abs_le] at g1
      have hy2 : y ≤ 2 * (rhe y : ℚ) := by linarith
      have h10 : 10 * (10 : ℚ) ^ (280 : ℤ) ≤ (10 : ℚ) ^ (285 : ℤ) := by
        have h1 : (10 : ℚ) ^ ((280 : ℤ) + 1) ≤ (10 : ℚ) ^ (285 : ℤ) := ten_le_iff.2 (by norm_num)
        rwa [ten_add, zpow_one, mul_comm] at h1
      have hone : (1 : ℚ) ≤ (10 : ℚ) ^ (280 : ℤ) := hmq.trans hrange
      generalize (10 : ℚ) ^ (280 : ℤ) = A at *
      generalize (10 : ℚ) ^ (285 : ℤ) = B at *
      linarith [g1.2]

end FlOps

end Unc
