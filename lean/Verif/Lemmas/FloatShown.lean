import Verif.Lemmas.FloatPlan

/-! # The numbers shown, with floating-point arithmetic -/

set_option autoImplicit false

namespace Unc

theorem pyRound_units (q : ℚ) (prec : ℕ) : pyRound q prec = (rhe (q * 10 ^ prec) : ℚ) / 10 ^ prec := by
  unfold pyRound
  rw [zpow_natCast]

theorem pyRound_half (q : ℚ) (prec : ℕ) : |pyRound q prec - q| ≤ ((10 : ℚ) ^ prec)⁻¹ / 2 := by
  have hp : (0 : ℚ) < 10 ^ prec := by positivity
  have h := rhe_near (q * 10 ^ prec)
  rw [pyRound_units]
  have e : (rhe (q * 10 ^ prec) : ℚ) / 10 ^ prec - q = -(q * 10 ^ prec - rhe (q * 10 ^ prec)) * ((10 : ℚ) ^ prec)⁻¹ := by
    field_simp
    ring
  rw [e, abs_mul, abs_neg, abs_of_pos (inv_pos.2 hp)]
  have := mul_le_mul_of_nonneg_right h (inv_pos.2 hp).le
  linarith

namespace FlOps

variable {f : FlOps}

theorem Sound.format_layout (hf : f.Sound) {x s : ℚ} (hx : InRange x) (hs : 0 < s) (hsr : InRange s) {spec out : Str}
    (hprec : ∀ p d, parseSpec spec = some p → 'S' ∈ p.options → p.prec = some d → digitsVal d ≤ 50)
    (h : f.formatU (.fin x) (.fin s) spec = .ok out) :
    ∃ p, parseSpec spec = some p ∧ p.Valid ∧ ∃ l S' E, ∃ k : ℕ,
      LimitFl f p (presOf p) (f.scaled p x) (f.scaled p s) l S' ∧
      E = f.commonExponent (presOf p) [|f.scaled p x|, f.scaled p s] (some l) ∧ (∀ e ∈ E, -115 ≤ e ∧ e ≤ 115) ∧
      0 < f.mant E S' ∧
      |(k : ℚ) - f.mant E S' * 10 ^ (E.getD 0 - l).toNat| ≤ 1 / 2 + f.mant E S' * 10 ^ (E.getD 0 - l).toNat * (3 / 10 ^ 14) ∧
      (f.mant E S' * 10 ^ (E.getD 0 - l).toNat ≤ 10 ^ 12 → (k : ℤ) = rhe (f.mant E S' * 10 ^ (E.getD 0 - l).toNat)) ∧
      FaithfulFl x s out ⟨(E.getD 0 - l).toNat, pyRound (f.mant E (f.scaled p x)) (E.getD 0 - l).toNat, E⟩
        ⟨(E.getD 0 - l).toNat, (k : ℚ) / 10 ^ (E.getD 0 - l).toNat, E⟩ (decide (p.type = ['%'])) ∧
      ((10 : ℚ) ^ (-101 : ℤ) ≤ S' ∧ S' ≤ (10 : ℚ) ^ (104 : ℤ)) ∧
      ∃ t, t = mainType p ∧
        f.formatNum (.fin (f.mant E (f.scaled p x))) (.fin (f.mant E S')) E p (E.getD 0 - l).toNat t
          (if p.type = ['%'] then '%' :: p.options else p.options) = .ok out ∧
        ('S' ∈ p.options → (E.getD 0 - l).toNat ≤ 270 ∧
          ∃ U, f.shorthandUncert (f.mant E S') (E.getD 0 - l).toNat = .ok U ∧ BracketForm (E.getD 0 - l).toNat k U) ∧
        ('S' ∉ p.options → pyRound (f.mant E S') (E.getD 0 - l).toNat = (k : ℚ) / 10 ^ (E.getD 0 - l).toNat) := by
  have srange : ∀ p : FmtParts, 0 < f.scaled p s ∧ (10 : ℚ) ^ (-100 : ℤ) ≤ f.scaled p s ∧ f.scaled p s ≤ (10 : ℚ) ^ (103 : ℤ) := by
    intro p
    obtain ⟨-, h2, h3⟩ := hf.scaled_near p hsr
    have h0 := h3 hs
    rcases h2 with h2 | ⟨a, b⟩
    · exact absurd h2 h0.ne'
    · rw [abs_of_pos h0] at a b
      exact ⟨h0, a, b⟩
  have sc0 : ∀ p : FmtParts, 0 < s * scaleOf p := fun p => mul_pos hs (by unfold scaleOf; split_ifs <;> norm_num)
  have snear : ∀ p : FmtParts, |f.scaled p s - s * scaleOf p| ≤ s * scaleOf p / 10 ^ 15 := by
    intro p
    have := (hf.scaled_near p hsr).1
    rwa [abs_of_pos (sc0 p)] at this
  have shown : ∀ (p : FmtParts) l S', LimitFl f p (presOf p) (f.scaled p x) (f.scaled p s) l S' → _ := fun p l S' hl =>
    hl.shown hf (sc0 p) (snear p) (srange p).2.1 (srange p).2.2
  obtain ⟨p, hp, hv, l, S', E, t, hl, ht', hE, h⟩ := f.format_fin h (fun p => (srange p).1)
    (fun p l S' hl => (ten_pos _).trans_le (shown p l S' hl).1)
  have ht : t = 'f' ∨ t = 'F' := ht' ▸ mainType_f p
  obtain ⟨b1, b2, T, hT1, hT2, hT3⟩ := shown p l S' hl
  obtain ⟨x1, x2, -⟩ := hf.scaled_near p hx
  obtain ⟨s1, s2, s3⟩ := srange p
  have hfac : percentFactor (decide (p.type = ['%'])) = scaleOf p := by
    unfold percentFactor scaleOf
    simp
  have hv1 : (10 : ℚ) ^ (-100 : ℤ) ≤ max |f.scaled p x| (f.scaled p s) := s2.trans (le_max_right _ _)
  have hv2 : max |f.scaled p x| (f.scaled p s) ≤ (10 : ℚ) ^ (103 : ℤ) := by
    refine max_le ?_ s3
    rcases x2 with h | ⟨-, h⟩
    · rw [h, abs_zero]; exact (ten_pos _).le
    · exact h
  have hEr : ∀ e ∈ E, -115 ≤ e ∧ e ≤ 115 := by
    intro e he
    have := hf.exponent_range (a := -100) (b := 103) (by norm_num) (by norm_num) (by norm_num) (by norm_num) hv1 hv2 hE e he
    omega
  have hS'0 : 0 < S' := (ten_pos _).trans_le b1
  have mS := hf.mant_near (q := S') hEr (.inr (by
    rw [abs_of_pos hS'0]
    exact ⟨(ten_le_iff.2 (by norm_num)).trans b1, b2.trans (ten_le_iff.2 (by norm_num))⟩))
  have mX := hf.mant_near (q := f.scaled p x) hEr (x2.imp id fun ⟨a, b⟩ =>
    ⟨(ten_le_iff.2 (by norm_num)).trans a, b.trans (ten_le_iff.2 (by norm_num))⟩)
  have hEp := ten_pos (E.getD 0)
  rw [abs_of_pos hS'0] at mS
  have hm0 : 0 < f.mant E S' := by
    rw [abs_le] at mS
    have : 0 < f.mant E S' * (10 : ℚ) ^ E.getD 0 := by linarith [mS.1]
    exact pos_of_mul_pos_left this hEp.le
  -- the nominal value
  have nomNear : Shown.NearFl ⟨(E.getD 0 - l).toNat, pyRound (f.mant E (f.scaled p x)) (E.getD 0 - l).toNat, E⟩
      (x * percentFactor (decide (p.type = ['%']))) := by
    rw [hfac]
    refine near_of (f.scaled p x) _ _ _ E _ (x1.trans ?_) mX ((pyRound_half _ _).trans ?_)
    · have := abs_nonneg (x * scaleOf p)
      linarith
    · have := abs_nonneg (f.mant E (f.scaled p x))
      linarith
  have unear : ∀ r : ℚ, |r - f.mant E S'| ≤ ((10 : ℚ) ^ (E.getD 0 - l).toNat)⁻¹ / 2 + f.mant E S' * (3 / 10 ^ 14) →
      Shown.NearFl ⟨(E.getD 0 - l).toNat, r, E⟩ T := by
    intro r hr
    refine near_of S' T _ _ E _ (by rw [abs_of_pos hT2]; exact hT3) (by rw [abs_of_pos hS'0]; exact mS) ?_
    rw [abs_of_pos hm0]
    exact hr
  have hd : decide ('%' ∈ (if p.type = ['%'] then '%' :: p.options else p.options)) = decide (p.type = ['%']) := by
    rw [decide_eq_decide]
    exact percent_mem hv
  have hpe : '%' ∈ (if p.type = ['%'] then '%' :: p.options else p.options) → E = none := by
    intro h
    have h' := (percent_mem hv).1 h
    rw [hE]
    unfold FlOps.commonExponent presOf
    rw [if_pos h', if_pos (.inl rfl)]
  refine ⟨p, hp, hv, l, S', E, ?_⟩
  have hout := h
  unfold FlOps.formatNum at h
  by_cases hS : 'S' ∈ (if p.type = ['%'] then '%' :: p.options else p.options)
  · rw [if_pos hS] at h
    have hSo : 'S' ∈ p.options := by
      split_ifs at hS with hc
      · simpa using hS
      · exact hS
    obtain ⟨U, hU, hdis⟩ := f.formatShorthand_displays hv hm0.ne' ht h
    have hlow : -160 ≤ l := by
      cases hl with
      | digits d hd' hu hpos =>
        have := hprec p d hp hSo hd'
        have := hf.signif_ge (a := -100) (b := 103) (by norm_num) (by norm_num) s2 s3 (digitsVal d)
        omega
      | pdg hd' =>
        have hn : (f.pdgPrecision (f.scaled p s)).1 ≤ 2 := by
          unfold FlOps.pdgPrecision
          simp only []
          split_ifs <;> simp
        have := hf.signif_ge (a := -101) (b := 104) (by norm_num) (by norm_num) b1 b2 (f.pdgPrecision (f.scaled p s)).1
        omega
      | fixed d hd' hu hff =>
        have := hprec p d hp hSo hd'
        omega
      | float d hd' hu hff n hn =>
        have := hprec p d hp hSo hd'
        have := hf.signif_ge (a := -100) (b := 103) (by norm_num) (by norm_num) hv1 hv2 n
        have : n ≤ 51 := by
          rw [hn]
          split_ifs <;> omega
        omega
    have hEu : E.getD 0 ≤ 106 := by
      cases hE0 : E with
      | none => simp
      | some e =>
        have := hf.exponent_range (a := -100) (b := 103) (by norm_num) (by norm_num) (by norm_num) (by norm_num) hv1 hv2 hE e
          (by rw [hE0]; exact rfl)
        simp
        omega
    have hEl : -106 ≤ E.getD 0 := by
      cases hE0 : E with
      | none => simp
      | some e =>
        have := hf.exponent_range (a := -100) (b := 103) (by norm_num) (by norm_num) (by norm_num) (by norm_num) hv1 hv2 hE e
          (by rw [hE0]; exact rfl)
        simp
        omega
    have hmr : (10 : ℚ) ^ (-230 : ℤ) ≤ f.mant E S' ∧ f.mant E S' ≤ (10 : ℚ) ^ (230 : ℤ) := by
      rw [abs_le] at mS
      constructor
      · have k1 : (10 : ℚ) ^ (-102 : ℤ) ≤ f.mant E S' * (10 : ℚ) ^ E.getD 0 :=
          (ten_half (show (-102 : ℤ) < -101 by norm_num)).trans ((div_le_div_of_nonneg_right b1 (by norm_num)).trans (by linarith [mS.1]))
        have k2 : (10 : ℚ) ^ (-230 : ℤ) * (10 : ℚ) ^ E.getD 0 ≤ f.mant E S' * (10 : ℚ) ^ E.getD 0 := by
          rw [← ten_add]
          exact (ten_le_iff.2 (by omega)).trans k1
        exact le_of_mul_le_mul_right k2 hEp
      · have k1 : f.mant E S' * (10 : ℚ) ^ E.getD 0 ≤ (10 : ℚ) ^ (105 : ℤ) :=
          le_trans (by linarith [mS.2] : _ ≤ 2 * S') ((mul_le_mul_of_nonneg_left b2 (by norm_num)).trans (ten_double (by norm_num)))
        have k2 : f.mant E S' * (10 : ℚ) ^ E.getD 0 ≤ (10 : ℚ) ^ (230 : ℤ) * (10 : ℚ) ^ E.getD 0 := by
          rw [← ten_add]
          exact k1.trans (ten_le_iff.2 (by omega))
        exact le_of_mul_le_mul_right k2 hEp
    obtain ⟨k, hB, hk1, hk2⟩ := hf.shorthand_form hmr.1 hmr.2 (prec := (E.getD 0 - l).toNat) (by omega) hU
    have hD := hdis _ (hB.bracket E)
    rw [hd] at hD
    refine ⟨k, hl, hE, hEr, hm0, hk1, hk2, ⟨hD, nomNear, T, ?_, unear _ ?_⟩, ⟨b1, b2⟩, t, ht', hout,
      fun _ => ⟨by omega, U, hU, hB⟩, fun hc => absurd hSo hc⟩
    · rw [hfac]; exact hT1
    · have hpp : (0 : ℚ) < 10 ^ (E.getD 0 - l).toNat := by positivity
      generalize (10 : ℚ) ^ (E.getD 0 - l).toNat = U at *
      generalize f.mant E S' = m at *
      have e : (k : ℚ) / U - m = (k - m * U) * U⁻¹ := by field_simp
      rw [e, abs_mul, abs_of_pos (inv_pos.2 hpp)]
      have := mul_le_mul_of_nonneg_right hk1 (inv_pos.2 hpp).le
      refine this.trans (le_of_eq ?_)
      field_simp
  · rw [if_neg hS] at h
    have hD := formatPm_displays hv hm0.ne' ht hpe h
    rw [hd] at hD
    have hk0 : 0 ≤ rhe (f.mant E S' * 10 ^ (E.getD 0 - l).toNat) := rhe_nonneg (by positivity)
    obtain ⟨k, hk⟩ : ∃ k : ℕ, (k : ℤ) = rhe (f.mant E S' * 10 ^ (E.getD 0 - l).toNat) := ⟨_, Int.toNat_of_nonneg hk0⟩
    have hkq : pyRound (f.mant E S') (E.getD 0 - l).toNat = (k : ℚ) / 10 ^ (E.getD 0 - l).toNat := by
      rw [pyRound_units, ← hk, Int.cast_natCast]
    have hun := unear _ ((pyRound_half (f.mant E S') (E.getD 0 - l).toNat).trans (by linarith))
    rw [hkq] at hD hun
    refine ⟨k, hl, hE, hEr, hm0, ?_, fun _ => hk, ⟨hD, nomNear, T, ?_, hun⟩, ⟨b1, b2⟩, t, ht', hout, fun hc => absurd ?_ hS, fun _ => hkq⟩
    · have := rhe_near (f.mant E S' * 10 ^ (E.getD 0 - l).toNat)
      rw [← hk, Int.cast_natCast, abs_sub_comm] at this
      refine this.trans (le_add_of_nonneg_right ?_)
      positivity
    · rw [hfac]; exact hT1
    · split_ifs
      · exact List.mem_cons_of_mem _ hc
      · exact hc

theorem Sound.format_displays (hf : f.Sound) {x s : ℚ} (hx : InRange x) (hs : 0 < s) (hsr : InRange s) {spec out : Str}
    (hprec : ∀ p d, parseSpec spec = some p → 'S' ∈ p.options → p.prec = some d → digitsVal d ≤ 50)
    (h : f.formatU (.fin x) (.fin s) spec = .ok out) :
    ∃ p, parseSpec spec = some p ∧ p.Valid ∧ ∃ l S' E, ∃ k : ℕ,
      LimitFl f p (presOf p) (f.scaled p x) (f.scaled p s) l S' ∧
      E = f.commonExponent (presOf p) [|f.scaled p x|, f.scaled p s] (some l) ∧ (∀ e ∈ E, -115 ≤ e ∧ e ≤ 115) ∧
      0 < f.mant E S' ∧
      |(k : ℚ) - f.mant E S' * 10 ^ (E.getD 0 - l).toNat| ≤ 1 / 2 + f.mant E S' * 10 ^ (E.getD 0 - l).toNat * (3 / 10 ^ 14) ∧
      (f.mant E S' * 10 ^ (E.getD 0 - l).toNat ≤ 10 ^ 12 → (k : ℤ) = rhe (f.mant E S' * 10 ^ (E.getD 0 - l).toNat)) ∧
      FaithfulFl x s out ⟨(E.getD 0 - l).toNat, pyRound (f.mant E (f.scaled p x)) (E.getD 0 - l).toNat, E⟩
        ⟨(E.getD 0 - l).toNat, (k : ℚ) / 10 ^ (E.getD 0 - l).toNat, E⟩ (decide (p.type = ['%'])) := by
  obtain ⟨p, h1, h2, l, S', E, k, h3, h4, h5, h6, h7, h8, h9, -⟩ := hf.format_layout hx hs hsr hprec h
  exact ⟨p, h1, h2, l, S', E, k, h3, h4, h5, h6, h7, h8, h9⟩

end FlOps

end Unc
