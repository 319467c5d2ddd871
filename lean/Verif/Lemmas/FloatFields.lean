import Verif.Lemmas.FloatShown

/-! # Layout of strings made with floating-point arithmetic -/

set_option autoImplicit false

namespace Unc

namespace FlOps

variable {f : FlOps}

theorem formatShorthand_layout {p : FmtParts} (hv : p.Valid) {q u : ℚ} (hu : u ≠ 0) {e : Option ℤ} {prec : ℕ} {out U : Str}
    (h : f.formatShorthand (.fin q) (.fin u) e p prec (mainType p) (optionsOf p) = .ok out)
    (hU : f.shorthandUncert u prec = .ok U) {k : ℚ} (hk : Bracket prec U ⟨prec, k, e⟩) :
    ShorthandLayout p q ⟨prec, pyRound q prec, e⟩ ⟨prec, k, e⟩ out := by
  have ht := mainType_f p
  have hse : specialError (.fin u) = false := by simp [specialError, FNum.truthy, FNum.isInfinite, hu]
  have hN : fmtSuffixN (.fin u) p prec (mainType p) = fixedSuffix prec (mainType p) := by simp [fmtSuffixN, hse]
  have hlN : ∀ s, latexNom (optionsOf p) (.fin q) s = s := by intro s; simp [latexNom]
  have hs := sign_head hv
  have f1 := fun z => pyFormat_fixed q _ hs z (decide (p.comma ≠ [])) prec ht
  unfold FlOps.formatShorthand at h
  obtain ⟨U', hU', h⟩ := bind_ok h
  have hUU : U' = U := by
    unfold FlOps.uncertStr at hU'
    simp only [if_neg hu] at hU'
    rw [hU] at hU'
    injection hU' with hU'
    exact hU'.symm
  subst hUU
  simp only [hN, hlN, percentStr_text p hv] at h
  have ha : '(' :: U' ++ ')' :: expStr e (mainType p) (optionsOf p) ++ percentText p =
      "(".toList ++ U' ++ ")".toList ++ expStr e (mainType p) (optionsOf p) ++ percentText p := by simp
  rw [ha] at h
  generalize hT : "(".toList ++ U' ++ ")".toList ++ expStr e (mainType p) (optionsOf p) ++ percentText p = tail at h
  have hf : pyFormat (.fin q) ((if p.zero ≠ [] ∧ p.width ≠ [] then p.sign ++ p.zero ++ natStr (digitsVal p.width -
      tail.length) ++ p.comma else p.sign ++ p.comma) ++ fixedSuffix prec (mainType p)) =
      .ok (fixedStr q p.sign.head? (zeroWidth p tail.length) (p.comma ≠ []) prec (mainType p)) := by
    unfold zeroWidth
    by_cases hz : p.zero ≠ [] ∧ p.width ≠ []
    · rw [if_pos hz, if_pos hz.symm, prefix_zero hv hz.1, f1]
    · rw [if_neg hz, if_neg (fun h => hz h.symm), prefix_plain hv, f1]
  rw [hf, zeroWidth_padding hv] at h
  obtain ⟨N, hN', h⟩ := bind_ok h
  injection hN' with hN'
  have hNt := fixedStr_text q p.sign (p.padding tail.length) (p.comma ≠ []) prec ht
  rw [sign_take hv, hN'] at hNt
  refine ⟨N, U', _, tail, rfl, expStr_text e p, hT.symm, hNt, hk, ?_, ?_⟩
  · intro hw
    rw [if_neg (by simp [hw])] at h
    injection h with h
    exact h.symm
  · intro hw
    rw [if_pos hw] at h
    refine robustAlign_layout hv h ?_
    intro hz
    have hz' : p.zero = ['0'] := hv.zero.resolve_left hz
    have : p.padding tail.length = some (digitsVal p.width - tail.length) := by
      unfold FmtParts.padding; rw [if_pos ⟨hz', hw⟩]
    rw [this] at hN'
    rw [← hN', List.length_append]
    have := fixedStr_length q p.sign.head? (digitsVal p.width - tail.length) (p.comma ≠ []) prec ht
    omega

/-- Rounding errors do not change the sign. -/
theorem sign_of_near {q Q r : ℚ} (h : |q - Q| ≤ |Q| * r) (hr : r < 1) (sign : Str) : signText q sign = signText Q sign := by
  have key : q < 0 ↔ Q < 0 := by
    rcases lt_trichotomy Q 0 with hQ | rfl | hQ
    · refine iff_of_true ?_ hQ
      rw [abs_of_neg hQ, abs_le] at h
      nlinarith [h.2]
    · simp only [abs_zero, zero_mul] at h
      have := abs_nonpos_iff.1 h
      rw [sub_zero] at this
      rw [this]
    · refine iff_of_false ?_ (by linarith)
      rw [abs_of_pos hQ, abs_le] at h
      nlinarith [h.1]
  unfold signText
  simp only [key]

/-- The mantissa has the sign of the number. -/
theorem Sound.sign_mant (hf : f.Sound) (p : FmtParts) {x : ℚ} (hx : InRange x) {E : Option ℤ}
    (hE : ∀ e ∈ E, -115 ≤ e ∧ e ≤ 115) : signText (f.mant E (f.scaled p x)) p.sign = signText x p.sign := by
  obtain ⟨x1, x2, -⟩ := hf.scaled_near p hx
  have mX := hf.mant_near (q := f.scaled p x) hE (x2.imp id fun ⟨a, b⟩ =>
    ⟨(ten_le_iff.2 (by norm_num)).trans a, b.trans (ten_le_iff.2 (by norm_num))⟩)
  rw [← signText_scale (ten_pos (E.getD 0)), sign_of_near mX (by norm_num), sign_of_near (x1.trans (le_of_eq (by ring)) :
    |f.scaled p x - x * scaleOf p| ≤ |x * scaleOf p| * (1 / 10 ^ 15)) (by norm_num), signText_scale (scaleOf_pos p)]

end FlOps

end Unc
