import Verif.Lemmas.LayoutSpecial

/-! # Layout of special values, from the values given to `format_num` -/

set_option autoImplicit false

namespace Unc

/-- The values given to `format_num` for the number `x ± s`, as far as special values are concerned. -/
structure SpecialPlan (x s : FNum) (plan : Plan) : Prop where
  nom : x.isInfinite = true → plan.nomMain = x
  nomInf : plan.nomMain.isInfinite = x.isInfinite
  err : specialError s = true → plan.errorMain = s
  errSpecial : specialError plan.errorMain = specialError s
  exp : x.isInfinite = true → s.isInfinite = true → plan.commonExp = none

theorem SpecialPlan.pm {x s : FNum} {plan : Plan} (hP : SpecialPlan x s plan) (hn : s ≠ .inf true) {p : FmtParts} (hv : p.Valid)
    (hg' : isGType p.type = true → p.prec = none) {out : Str}
    (hf : formatPm plan.nomMain plan.errorMain plan.commonExp p plan.prec (mainType p) (optionsOf p) = .ok out) :
    SpecialPmLayout p x s out := by
  obtain ⟨v1, v2, v3, v4, v6⟩ := hP
  obtain ⟨z, z', Ns, Es, A, B, hzz, hwz, hN, hE, hA, hB, rfl⟩ := formatPm_ok hv hf
  have hzN : z = p.padding (if plan.nomMain.isInfinite then 0 else (expStr plan.commonExp (mainType p) (optionsOf p)).length) := by
    rw [← zeroWidth_padding hv]
    unfold zeroWidth
    by_cases h : p.width ≠ [] ∧ p.zero ≠ []
    · rw [if_pos h, (hwz h.1 h.2).1]
    · rw [if_neg h, (hzz (by by_contra h'; exact h (not_or.1 h'))).1]
  have hzE : z' = p.padding (if specialError plan.errorMain then 0 else (expStr plan.commonExp (mainType p) (optionsOf p)).length) := by
    rw [← zeroWidth_padding hv]
    unfold zeroWidth
    by_cases h : p.width ≠ [] ∧ p.zero ≠ []
    · rw [if_pos h, (hwz h.1 h.2).2]
    · rw [if_neg h, (hzz (by by_contra h'; exact h (not_or.1 h'))).2]
  have hsg : p.sign.take 1 = p.sign := sign_take hv
  refine ⟨latexNom (optionsOf p) plan.nomMain Ns, latexErr (optionsOf p) plan.errorMain Es,
    expStr plan.commonExp (mainType p) (optionsOf p), plan.commonExp, expStr_text _ p, ?_, ?_, ?_, ?_, ?_, ?_, ?_, ?_⟩
  · intro hx
    rw [FNum.notFinite_iff] at hx
    have e := v1 hx
    rw [v2, hx, if_pos rfl] at hzN
    rw [e] at hN ⊢
    have := pyFormat_special hv hx (signs_ok hv) _ _ (fmtSuffixN_cases _ p _ hg') hN
    rw [this, hsg, hzN]
    exact latexNom_special hx _ _
  · intro hx
    rw [FNum.notFinite_iff] at hx
    have e : plan.errorMain = s := v3 (by simp [specialError, hx])
    have hsp : specialError s = true := by simp [specialError, hx]
    rw [v4, hsp, if_pos rfl] at hzE
    rw [e] at hE ⊢
    have := pyFormat_special (sign := []) hv hx (by simp) _ _ (fmtSuffixE_cases _ _ p _ (isInfinite_truthy hx) hg') hE
    rw [this, hzE]
    exact latexErr_special hx hn _
  · rintro rfl
    have e : plan.errorMain = .fin 0 := v3 (by decide +kernel)
    have hlat : latexErr (optionsOf p) (.fin 0) Es = Es := by simp [latexErr]
    have hsx : fmtSuffixE plan.nomMain (.fin 0) p plan.prec (mainType p) = fixedSuffix 0 (mainType p) := by
      have h0 : natStr 0 = ['0'] := by decide +kernel
      simp [fmtSuffixE, fixedSuffix, FNum.truthy, h0]
    have hsp : specialError (.fin 0) = true := by decide +kernel
    rw [v4, hsp, if_pos rfl] at hzE
    rw [e] at hE ⊢
    rw [hsx, pyFormat_fixed _ _ (by simp) _ _ _ (mainType_f p)] at hE
    injection hE with hE
    rw [hlat, ← hE]
    refine ⟨?_, fun h => ?_⟩
    · have h1 := fixedStr_text 0 [] z' (decide (p.comma ≠ [])) 0 (mainType_f p)
      have h2 : pyRound 0 ((0 : ℕ) : ℤ) = 0 := by
        unfold pyRound
        rw [zero_mul, show (0 : ℚ) = ((0 : ℤ) : ℚ) by norm_num, rhe_int]
        simp
      rw [h2, hzE] at h1
      rw [hzE]
      have h3 : signText 0 (([] : Str).take 1) = [] := by simp [signText]
      rw [h3] at h1
      exact h1
    · exact (fixedStr_zero z' _ (mainType_f p)).2.2 (hzz (h.elim .inr .inl)).2
  · intro hx k hk
    rw [FNum.notFinite_iff, Bool.not_eq_true] at hx
    rw [v2, hx, if_neg (by simp)] at hzN
    have hlat : latexNom (optionsOf p) plan.nomMain Ns = Ns := by
      rw [← v2] at hx
      revert hx
      cases plan.nomMain with
      | fin q => intro _; simp [latexNom]
      | inf b => intro h; cases h
      | nan => intro h; cases h
    rw [hlat]
    exact pyFormat_length (signs_ok hv) (fmtSuffixN_cases _ p _ hg') hN k (hzN.trans hk)
  · intro hx k hk
    rw [specialError_iff, Bool.not_eq_true] at hx
    rw [v4, hx, if_neg (by simp)] at hzE
    rw [← v4] at hx
    have htr : plan.errorMain.truthy = true := by
      simp only [specialError, Bool.or_eq_false_iff, Bool.not_eq_false'] at hx
      exact hx.1
    have hlat : latexErr (optionsOf p) plan.errorMain Es = Es := by
      have : plan.errorMain.isInfinite = false := by
        simp only [specialError, Bool.or_eq_false_iff] at hx
        exact hx.2
      revert this
      cases plan.errorMain with
      | fin q => intro _; simp [latexErr]
      | inf b => intro h; cases h
      | nan => intro h; cases h
    rw [hlat]
    exact pyFormat_length (by simp) (fmtSuffixE_cases _ _ p _ htr hg') hE k (hzE.trans hk)
  · intro hx hs'
    exact v6 ((FNum.notFinite_iff _).1 hx) ((FNum.notFinite_iff _).1 hs')
  · intro hw
    rw [wrapPm_noWidth hv hw]
    rcases hA with ⟨-, rfl⟩ | ⟨h', -⟩
    · rcases hB with ⟨-, rfl⟩ | ⟨h', -⟩
      · simp [hw]
      · exact absurd hw h'
    · exact absurd hw h'
  · intro hw
    refine ⟨A, B, _, _, ?_, ?_, ?_, ?_, hA.field hv hw, hB.field hv hw, wrapPm_width hv hw _ _ _ _⟩
    · intro hx
      rw [FNum.notFinite_iff] at hx
      rw [if_neg]
      rintro ⟨-, h'⟩
      rw [v2, hx] at h'
      cases h'
    · intro hx
      rw [FNum.notFinite_iff] at hx
      rw [if_pos]
      exact ⟨hw, by rw [v2]; simpa using hx⟩
    · intro hx
      rw [specialError_iff] at hx
      rw [if_neg]
      rintro ⟨-, h'⟩
      rw [v4, hx] at h'
      cases h'
    · intro hx
      rw [specialError_iff] at hx
      rw [if_pos]
      exact ⟨hw, by rw [v4]; simpa using hx⟩

theorem SpecialPlan.shorthand {x s : FNum} {plan : Plan} (hP : SpecialPlan x s plan) (hn : s ≠ .inf true) {p : FmtParts} (hv : p.Valid)
    (hg' : isGType p.type = true → p.prec = none) {z : Option ℕ} {Ns U out : Str}
    (hzz : (p.width = [] ∨ p.zero = []) → z = none)
    (hwz : p.width ≠ [] → p.zero ≠ [] → z = some (digitsVal p.width -
      ('(' :: (U ++ ')' :: (expStr plan.commonExp (mainType p) (optionsOf p) ++ percentStr (optionsOf p)))).length))
    (hN : pyFormat plan.nomMain (specPrefix p.sign.head? z (p.comma ≠ []) ++ fmtSuffixN plan.errorMain p plan.prec (mainType p)) = .ok Ns)
    (hU : specialError plan.errorMain = true → uncertStr plan.errorMain plan.prec (mainType p) (optionsOf p) = .ok U)
    (hA : Padded p (latexNom (optionsOf p) plan.nomMain Ns ++
      '(' :: (U ++ ')' :: (expStr plan.commonExp (mainType p) (optionsOf p) ++ percentStr (optionsOf p)))) out) :
    SpecialShorthandLayout p x s out := by
  obtain ⟨v1, v2, v3, v4, v6⟩ := hP
  have hzN : z = p.padding ('(' :: (U ++ ')' :: (expStr plan.commonExp (mainType p) (optionsOf p) ++ percentStr (optionsOf p)))).length := by
    rw [← zeroWidth_padding hv]
    unfold zeroWidth
    by_cases h : p.width ≠ [] ∧ p.zero ≠ []
    · rw [if_pos h, hwz h.1 h.2]
    · rw [if_neg h, hzz (by by_contra h'; exact h (not_or.1 h'))]
  have hsg : p.sign.take 1 = p.sign := sign_take hv
  rw [percentStr_text p hv] at hA hzN
  have htail : '(' :: (U ++ ')' :: (expStr plan.commonExp (mainType p) (optionsOf p) ++ percentText p)) =
      "(".toList ++ U ++ ")".toList ++ expStr plan.commonExp (mainType p) (optionsOf p) ++ percentText p := by
    simp
  rw [htail] at hA hzN
  refine ⟨latexNom (optionsOf p) plan.nomMain Ns, U, expStr plan.commonExp (mainType p) (optionsOf p), _, plan.commonExp,
    expStr_text _ p, rfl, ?_, ?_, ?_, ?_, ?_, ?_, ?_⟩
  · intro hx
    rw [FNum.notFinite_iff] at hx
    have e := v1 hx
    rw [e] at hN ⊢
    have := pyFormat_special hv hx (signs_ok hv) _ _ (fmtSuffixN_cases _ p _ hg') hN
    rw [this, hsg, hzN]
    exact latexNom_special hx _ _
  · intro hx
    rw [FNum.notFinite_iff] at hx
    have e : plan.errorMain = s := v3 (by simp [specialError, hx])
    have hU := hU (by rw [e]; simp [specialError, hx])
    rw [e] at hU
    exact uncertStr_special hx hn hU
  · rintro rfl
    have e : plan.errorMain = .fin 0 := v3 (by decide +kernel)
    have hU := hU (by rw [e]; decide +kernel)
    rw [e] at hU
    simp only [uncertStr, if_true] at hU
    injection hU with hU
    exact hU.symm
  · intro hx k hk
    rw [FNum.notFinite_iff, Bool.not_eq_true] at hx
    have hlat : latexNom (optionsOf p) plan.nomMain Ns = Ns := by
      rw [← v2] at hx
      revert hx
      cases plan.nomMain with
      | fin q => intro _; simp [latexNom]
      | inf b => intro h; cases h
      | nan => intro h; cases h
    rw [hlat]
    exact pyFormat_length (signs_ok hv) (fmtSuffixN_cases _ p _ hg') hN k (hzN.trans hk)
  · intro hx hs'
    exact v6 ((FNum.notFinite_iff _).1 hx) ((FNum.notFinite_iff _).1 hs')
  · intro hw
    rcases hA with ⟨-, h⟩ | ⟨h', -⟩
    · exact h
    · exact absurd hw h'
  · intro hw
    exact hA.field hv hw

end Unc
