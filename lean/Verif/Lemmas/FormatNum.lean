import Verif.Lemmas.Printed
import Verif.Lemmas.FormatSpec
import Verif.Lemmas.Accepted
import Verif.Props.C45_Parsing

/-!
# The strings made by `format_num` for finite values and a non-zero uncertainty
-/

set_option autoImplicit false

namespace Unc

section
variable {p : FmtParts} (hv : p.Valid)
include hv

theorem sign_head : ∀ c ∈ p.sign.head?, c ∈ "+- ".toList := by
  intro c hc
  rcases hv.sign with h | ⟨d, hd, h⟩
  · rw [h] at hc; cases hc
  · rw [h] at hc
    obtain rfl : d = c := by simpa using hc
    exact (by decide : ∀ c ∈ ['-', '+', ' '], c ∈ "+- ".toList) d hd

theorem prefix_plain : p.sign ++ p.comma = specPrefix p.sign.head? none (p.comma ≠ []) := by
  rcases hv.sign with h | ⟨d, hd, h⟩ <;> rcases hv.comma with h' | h' <;> rw [h, h'] <;> rfl

theorem prefix_comma : p.comma = specPrefix none none (p.comma ≠ []) := by
  rcases hv.comma with h' | h' <;> rw [h'] <;> rfl

theorem prefix_zero (hz : p.zero ≠ []) (w : ℕ) :
    p.sign ++ p.zero ++ natStr w ++ p.comma = specPrefix p.sign.head? (some w) (p.comma ≠ []) := by
  have hz' : p.zero = ['0'] := hv.zero.resolve_left hz
  rw [hz']
  rcases hv.sign with h | ⟨d, hd, h⟩ <;> rcases hv.comma with h' | h' <;> rw [h, h'] <;> simp [specPrefix]

theorem prefix_zero_err (hz : p.zero ≠ []) (w : ℕ) :
    p.zero ++ natStr w ++ p.comma = specPrefix none (some w) (p.comma ≠ []) := by
  have hz' : p.zero = ['0'] := hv.zero.resolve_left hz
  rw [hz']
  rcases hv.comma with h' | h' <;> rw [h'] <;> simp [specPrefix]

end

/-- The end of `format_num` for the ± notation. -/
def wrapPm (e : Option ℤ) (p : FmtParts) (t : Char) (options : Str) (A B : Str) : Str :=
  if p.width = [] ∧ e.isSome then
    (grouping options).1 ++ (A ++ pmSymbol options ++ B) ++ (grouping options).2 ++ expStr e t options ++ percentStr options
  else if percentStr options ≠ [] then
    (grouping options).1 ++ (A ++ pmSymbol options ++ B) ++ (grouping options).2 ++ percentStr options
  else if 'p' ∈ options then (grouping options).1 ++ (A ++ pmSymbol options ++ B) ++ (grouping options).2
  else A ++ pmSymbol options ++ B

/-- The width required by the zero flag. -/
def zeroWidth (p : FmtParts) (n : ℕ) : Option ℕ :=
  if p.width ≠ [] ∧ p.zero ≠ [] then some (digitsVal p.width - n) else none

theorem formatPm_fin {p : FmtParts} (hv : p.Valid) {q u : ℚ} (hu : u ≠ 0) {t : Char} (ht : t = 'f' ∨ t = 'F') (e : Option ℤ)
    (prec : ℕ) (options : Str) :
    formatPm (.fin q) (.fin u) e p prec t options =
      let x := expStr e t options
      let N := fixedStr q p.sign.head? (zeroWidth p x.length) (p.comma ≠ []) prec t
      let U := fixedStr u none (zeroWidth p x.length) (p.comma ≠ []) prec t
      if p.width = [] then .ok (wrapPm e p t options N U)
      else (robustAlign (N ++ x) p.fill (effectiveAlign p) p.width).bind fun A =>
        (robustAlign (U ++ x) p.fill (effectiveAlign p) p.width).bind fun B => .ok (wrapPm e p t options A B) := by
  have hse : specialError (.fin u) = false := by simp [specialError, FNum.truthy, FNum.isInfinite, hu]
  have hni : (FNum.fin q).isInfinite = false := rfl
  have hN : fmtSuffixN (.fin u) p prec t = fixedSuffix prec t := by simp [fmtSuffixN, hse]
  have hE : fmtSuffixE (.fin q) (.fin u) p prec t = fixedSuffix prec t := by
    simp [fmtSuffixE, FNum.truthy, hu, hni]
  have hlN : ∀ s, latexNom options (.fin q) s = s := by intro s; simp [latexNom]
  have hlE : ∀ s, latexErr options (.fin u) s = s := by intro s; simp [latexErr]
  have hs := sign_head hv
  have hsn : ∀ c ∈ (none : Option Char), c ∈ "+- ".toList := by simp
  have f1 := fun z => pyFormat_fixed q _ hs z (decide (p.comma ≠ [])) prec ht
  have f2 := fun z => pyFormat_fixed u _ hsn z (decide (p.comma ≠ [])) prec ht
  have g1 : pyFormat (.fin q) (p.sign ++ p.comma ++ fixedSuffix prec t) =
    .ok (fixedStr q p.sign.head? none (p.comma ≠ []) prec t) := by rw [prefix_plain hv, f1]
  have g2 : pyFormat (.fin u) (p.comma ++ fixedSuffix prec t) = .ok (fixedStr u none none (p.comma ≠ []) prec t) := by
    rw [← f2, ← prefix_comma hv]
  have fin : ∀ A B : Str, (if ((decide (p.width = [])) && e.isSome) = true then
        (pure ((grouping options).1 ++ (A ++ pmSymbol options ++ B) ++ (grouping options).2 ++ expStr e t options ++
          percentStr options) : PyRes Str)
      else if percentStr options ≠ [] then
        pure ((grouping options).1 ++ (A ++ pmSymbol options ++ B) ++ (grouping options).2 ++ percentStr options)
      else if 'p' ∈ options then
        pure ((grouping options).1 ++ (A ++ pmSymbol options ++ B) ++ (grouping options).2)
      else pure (A ++ pmSymbol options ++ B)) = .ok (wrapPm e p t options A B) := by
    intro A B
    unfold wrapPm
    by_cases h1 : p.width = [] ∧ e.isSome
    · rw [if_pos h1, if_pos (by simp [h1])]; rfl
    · rw [if_neg h1, if_neg (by simpa using h1)]
      split_ifs <;> rfl
  unfold formatPm zeroWidth
  simp only [hN, hE, hlN, hlE, hse, hni]
  by_cases hw : p.width = []
  · rw [if_pos hw, if_neg (by simp [hw]), if_neg (by simp [hw])]
    simp only []
    rw [g1, g2]
    simp only [hw, ne_eq, not_true_eq_false, if_false, decide_true, Bool.not_true, Bool.false_and]
    rw [hw] at fin
    exact fin _ _
  · rw [if_neg hw]
    by_cases hz : p.zero ≠ []
    · have hwz : p.width ≠ [] ∧ p.zero ≠ [] := ⟨hw, hz⟩
      simp only [if_pos hwz]
      have e1 : (!decide (p.width = []) && !false) = true := by simp [hw]
      simp only [e1, if_true]
      rw [prefix_zero hv hz, prefix_zero_err hv hz, f1, f2]
      show (if p.width ≠ [] then Except.bind _ _ else _ : PyRes Str) = _
      rw [if_pos hw]
      congr 1
      funext A
      show (if p.width ≠ [] then Except.bind _ _ else _ : PyRes Str) = _
      rw [if_pos hw]
      congr 1
      funext B
      exact fin A B
    · have hwz : ¬ (p.width ≠ [] ∧ p.zero ≠ []) := fun h => hz h.2
      simp only [if_neg hwz]
      have e1 : (!decide (p.width = []) && !false) = true := by simp [hw]
      simp only [e1, if_true]
      rw [g1, g2]
      show (if p.width ≠ [] then Except.bind _ _ else _ : PyRes Str) = _
      rw [if_pos hw]
      congr 1
      funext A
      show (if p.width ≠ [] then Except.bind _ _ else _ : PyRes Str) = _
      rw [if_pos hw]
      congr 1
      funext B
      exact fin A B

theorem plainInt_intStr (z : ℤ) : PlainInt (intStr z) z := by
  unfold intStr
  split_ifs with h
  · refine ⟨['-'], natStr z.natAbs, .inr (.inr rfl), natStr_digits _, natStr_ne _, rfl, ?_⟩
    rw [if_pos rfl, digitsVal_natStr]; omega
  · refine ⟨[], natStr z.natAbs, .inl rfl, natStr_digits _, natStr_ne _, rfl, ?_⟩
    rw [if_neg (by simp), digitsVal_natStr]; omega

theorem plainInt_expDigits (z : ℤ) : PlainInt (expDigits z) z := by
  have hd : AllD (if z.natAbs < 10 then '0' :: natStr z.natAbs else natStr z.natAbs) := by
    split_ifs
    · exact AllD.append (AllD.replicate 1) (natStr_digits _)
    · exact natStr_digits _
  have hne : (if z.natAbs < 10 then '0' :: natStr z.natAbs else natStr z.natAbs) ≠ [] := by
    split_ifs
    · simp
    · exact natStr_ne _
  have hval : digitsVal (if z.natAbs < 10 then '0' :: natStr z.natAbs else natStr z.natAbs) = z.natAbs := by
    split_ifs
    · rw [show '0' :: natStr z.natAbs = List.replicate 1 '0' ++ natStr z.natAbs from rfl, digitsVal_zeros_append,
        digitsVal_natStr]
    · exact digitsVal_natStr _
  unfold expDigits
  by_cases h : z < 0
  · rw [if_pos h]
    refine ⟨['-'], _, .inr (.inr rfl), hd, hne, rfl, ?_⟩
    rw [if_pos rfl, hval]; omega
  · rw [if_neg h]
    refine ⟨['+'], _, .inr (.inl rfl), hd, hne, rfl, ?_⟩
    rw [if_neg (by decide), hval]; omega

theorem expStr_opt (e : Option ℤ) {t : Char} (ht : t = 'f' ∨ t = 'F') (options : Str) : OptExp (expStr e t options) e := by
  cases e with
  | none => rfl
  | some n =>
    show ExpShown _ n
    unfold expStr
    simp only []
    cases printType options with
    | default =>
      rcases ht with rfl | rfl
      · exact .e _ _ (plainInt_expDigits n)
      · exact .E _ _ (plainInt_expDigits n)
    | pretty => exact .pretty _ _ (plainInt_intStr n)
    | latex => exact .latex _ _ (plainInt_intStr n)

/-- The fill character used by the alignment. -/
def fillChar (fill width : Str) : Char :=
  match fill with
  | c :: _ => c
  | [] => if width.head? = some '0' then '0' else ' '

theorem robustAlign_ok {s fill width A : Str} {al : Char} (h : robustAlign s fill al width = .ok A) :
    (∃ i j, A = List.replicate i (fillChar fill width) ++ s ++ List.replicate j (fillChar fill width)) ∧
      (digitsVal width ≤ s.length → A = s) := by
  have hA : A = padTo s (fillChar fill width) al (digitsVal width) := by
    by_cases h0 : al = '='
    · unfold robustAlign at h
      rw [if_pos h0] at h
      cases h
    · unfold robustAlign at h
      rw [if_neg h0] at h
      injection h with h
      exact h.symm
  rw [hA]
  unfold padTo
  simp only []
  constructor
  · split_ifs
    · exact ⟨0, _, by simp; rfl⟩
    · exact ⟨_, _, rfl⟩
    · exact ⟨_, 0, by simp; rfl⟩
  · intro hle
    rw [show digitsVal width - s.length = 0 by omega]
    split_ifs <;> simp

theorem group_grouping (options : Str) : Group (grouping options).1 (grouping options).2 := by
  unfold grouping
  cases printType options
  · exact .inl ⟨rfl, rfl⟩
  · exact .inr ⟨rfl, rfl⟩
  · exact .inl ⟨rfl, rfl⟩

theorem pmSym_pmSymbol (options : Str) : PmSym (pmSymbol options) := by
  unfold pmSymbol
  split_ifs
  · exact .inr (.inl rfl)
  · exact .inr (.inr rfl)
  · exact .inl rfl

theorem percentStr_cases (options : Str) :
    ('%' ∈ options ∧ PercentSign (percentStr options) ∧ percentStr options ≠ []) ∨ ('%' ∉ options ∧ percentStr options = []) := by
  unfold percentStr
  by_cases h : '%' ∈ options
  · left
    rw [if_pos h]
    split_ifs
    · exact ⟨h, .inr rfl, by decide⟩
    · exact ⟨h, .inl rfl, by decide⟩
  · right
    rw [if_neg h]
    exact ⟨h, rfl⟩

/-- The string made by `format_num` shows the rounded values. -/
theorem wrapPm_displays {p : FmtParts} {e : Option ℤ} {t : Char} (ht : t = 'f' ∨ t = 'F') {options A B : Str}
    (hpe : '%' ∈ options → e = none) {n u : Shown} (hn : n.exp = e) (hu : u.exp = e)
    (hw : p.width = [] → Fixed A n.places n.mantissa ∧ Fixed B u.places u.mantissa)
    (hw' : p.width ≠ [] → Field A n ∧ Field B u) :
    Displays (wrapPm e p t options A B) n u (decide ('%' ∈ options)) := by
  have hf : p.width = [] → e = none → Field A n ∧ Field B u := by
    intro h he
    obtain ⟨h1, h2⟩ := hw h
    exact ⟨⟨A, [], ' ', 0, 0, by simp, h1, by rw [hn, he]; rfl⟩, ⟨B, [], ' ', 0, 0, by simp, h2, by rw [hu, he]; rfl⟩⟩
  have hg := group_grouping options
  have hpm := pmSym_pmSymbol options
  unfold wrapPm
  by_cases h1 : p.width = [] ∧ e.isSome
  · rw [if_pos h1]
    obtain ⟨k, rfl⟩ := Option.isSome_iff_exists.1 h1.2
    have hnp : '%' ∉ options := fun h => by cases hpe h
    have hps : percentStr options = [] := by simp [percentStr, hnp]
    rw [hps, List.append_nil, decide_eq_false hnp]
    obtain ⟨h3, h4⟩ := hw h1.1
    obtain ⟨np, nm, ne⟩ := n
    obtain ⟨up, um, ue⟩ := u
    obtain rfl : ne = some k := hn
    obtain rfl : ue = some k := hu
    exact .factored _ _ _ _ _ _ _ _ _ _ _ hg h3 hpm h4 (expStr_opt (some k) ht options)
  · rw [if_neg h1]
    have hAB : Field A n ∧ Field B u := by
      by_cases h2 : p.width = []
      · refine hf h2 ?_
        cases e with
        | none => rfl
        | some k => exact absurd ⟨h2, rfl⟩ h1
      · exact hw' h2
    rcases percentStr_cases options with ⟨h3, h4, h5⟩ | ⟨h3, h4⟩
    · rw [if_pos h5, decide_eq_true h3]
      exact .percent _ _ _ _ _ _ _ _ hg hAB.1 hpm hAB.2 h4
    · rw [h4, if_neg (by simp), decide_eq_false h3]
      split_ifs
      · exact .grouped _ _ _ _ _ _ _ hg hAB.1 hpm hAB.2
      · exact .plain _ _ _ _ _ hAB.1 hpm hAB.2

/-- The ± notation shows both numbers rounded at the same decimal. -/
theorem formatPm_displays {p : FmtParts} (hv : p.Valid) {q u : ℚ} (hu : u ≠ 0) {t : Char} (ht : t = 'f' ∨ t = 'F') {e : Option ℤ}
    {prec : ℕ} {options out : Str} (hpe : '%' ∈ options → e = none)
    (h : formatPm (.fin q) (.fin u) e p prec t options = .ok out) :
    Displays out ⟨prec, pyRound q prec, e⟩ ⟨prec, pyRound u prec, e⟩ (decide ('%' ∈ options)) := by
  rw [formatPm_fin hv hu ht] at h
  simp only [] at h
  have hN := fixedStr_fixed q p.sign.head? (zeroWidth p (expStr e t options).length) (p.comma ≠ []) prec ht
  have hU := fixedStr_fixed u none (zeroWidth p (expStr e t options).length) (p.comma ≠ []) prec ht
  by_cases hw : p.width = []
  · rw [if_pos hw] at h
    injection h with h
    rw [← h]
    exact wrapPm_displays ht hpe rfl rfl (fun _ => ⟨hN, hU⟩) (fun h => absurd hw h)
  · rw [if_neg hw] at h
    obtain ⟨A, hA, h⟩ := bind_ok h
    obtain ⟨B, hB, h⟩ := bind_ok h
    injection h with h
    rw [← h]
    obtain ⟨⟨i, j, rfl⟩, -⟩ := robustAlign_ok hA
    obtain ⟨⟨i', j', rfl⟩, -⟩ := robustAlign_ok hB
    refine wrapPm_displays ht hpe rfl rfl (fun h => absurd h hw) (fun _ => ⟨?_, ?_⟩)
    · exact ⟨_, _, _, _, _, rfl, hN, expStr_opt e ht options⟩
    · exact ⟨_, _, _, _, _, rfl, hU, expStr_opt e ht options⟩

/-! ### The shorthand notation -/

theorem pyRound_idem (u : ℚ) (prec : ℕ) : pyRound u prec * (10 : ℚ) ^ prec = (rhe (u * (10 : ℚ) ^ prec) : ℚ) := by
  unfold pyRound
  rw [zpow_natCast]
  field_simp

theorem pyRound_nonneg {u : ℚ} (hu : 0 ≤ u) (k : ℤ) : 0 ≤ pyRound u k := by
  unfold pyRound
  have h := rhe_nonneg (mul_nonneg hu (ten_pos k).le)
  have : (0 : ℚ) ≤ (rhe (u * (10 : ℚ) ^ k) : ℚ) := by exact_mod_cast h
  exact div_nonneg this (ten_pos k).le

/-- The text of the uncertainty in the shorthand notation, when there is no exception. -/
def shortText (errorMain : ℚ) (prec : ℕ) : Str :=
  let uncert := pyRound errorMain prec
  if 0 ≤ firstDigit uncert ∧ 0 < prec then
    let r := fixedParts (rhe (|uncert| * (10 : ℚ) ^ prec)).natAbs prec
    (if uncert < 0 then ['-'] else []) ++ r.1 ++ r.2
  else if uncert ≠ 0 then intStr (rhe (uncert * (10 : ℚ) ^ prec))
  else "0.".toList

/-- The overflow of `10.**prec`. -/
def ShortOverflow (u : ℚ) (prec : ℕ) : Prop := 308 < prec ∧ firstDigit (pyRound u prec) < 0

instance (u : ℚ) (prec : ℕ) : Decidable (ShortOverflow u prec) := by unfold ShortOverflow; infer_instance

theorem shorthandUncert_eq (u : ℚ) (prec : ℕ) :
    shorthandUncert u prec = if ShortOverflow u prec then .error .overflowError else .ok (shortText u prec) := by
  unfold shorthandUncert shortText ShortOverflow pow10
  simp only []
  by_cases h1 : 0 ≤ firstDigit (pyRound u prec) ∧ 0 < prec
  · rw [if_pos h1, if_pos h1, if_neg (show ¬ (308 < prec ∧ firstDigit (pyRound u prec) < 0) by omega)]
    rfl
  · rw [if_neg h1, if_neg h1]
    by_cases h2 : pyRound u prec = 0
    · have h3 : firstDigit (pyRound u prec) = 0 := by rw [h2]; rfl
      rw [if_neg (not_not.2 h2), if_neg (not_not.2 h2), if_neg (show ¬ (308 < prec ∧ firstDigit (pyRound u prec) < 0) by omega)]
      rfl
    · rw [if_pos h2, if_pos h2]
      by_cases h4 : 308 < prec
      · rw [if_pos (by exact_mod_cast h4), if_pos ⟨h4, by omega⟩]
        rfl
      · rw [if_neg (by exact_mod_cast h4), if_neg (fun h => h4 h.1), zpow_natCast]
        rfl

theorem shorthandUncert_ok {u : ℚ} {prec : ℕ} {U : Str} (h : shorthandUncert u prec = .ok U) :
    U = shortText u prec ∧ ¬ ShortOverflow u prec := by
  rw [shorthandUncert_eq] at h
  split_ifs at h with h1
  injection h with h
  exact ⟨h.symm, h1⟩

/-- The text of the uncertainty in the shorthand notation. -/
theorem shortText_cases {u : ℚ} (hu : 0 ≤ u) (prec : ℕ) :
    (0 < prec ∧ ∃ g : Str, AllD g ∧ g ≠ [] ∧ digitsVal (g ++ padDigits prec (rhe (u * (10 : ℚ) ^ prec)).natAbs) =
        (rhe (u * (10 : ℚ) ^ prec)).natAbs ∧
        shortText u prec = g ++ '.' :: padDigits prec (rhe (u * (10 : ℚ) ^ prec)).natAbs) ∨
      ((308 < prec → ShortOverflow u prec) ∧ shortText u prec = natStr (rhe (u * (10 : ℚ) ^ prec)).natAbs) ∨
      (prec = 0 ∧ rhe (u * (10 : ℚ) ^ prec) = 0 ∧ shortText u prec = "0.".toList) := by
  have hr := pyRound_nonneg hu (prec : ℤ)
  have hz := rhe_nonneg (mul_nonneg hu (ten_pos (prec : ℤ)).le)
  have he : rhe (|pyRound u prec| * (10 : ℚ) ^ prec) = rhe (u * (10 : ℚ) ^ prec) := by
    rw [abs_of_nonneg hr, pyRound_idem, rhe_int]
  have he' : rhe (pyRound u prec * (10 : ℚ) ^ prec) = rhe (u * (10 : ℚ) ^ prec) := by
    rw [pyRound_idem, rhe_int]
  rw [zpow_natCast] at hz
  unfold shortText
  simp only [he, he', if_neg (not_lt.2 hr), List.nil_append, fixedParts]
  split_ifs with h1 h2 h3 h3
  · omega
  · left
    exact ⟨h1.2, natStr ((rhe (u * (10 : ℚ) ^ prec)).natAbs / 10 ^ prec), natStr_digits _, natStr_ne _, digitsVal_fixed _ _, rfl⟩
  · right; left
    refine ⟨fun h => ⟨h, by omega⟩, ?_⟩
    unfold intStr
    rw [if_neg (by omega)]
  · right; right
    have h4 : pyRound u prec = 0 := by simpa using h3
    have h5 : firstDigit (pyRound u prec) = 0 := by rw [h4]; rfl
    rw [h5] at h1
    have h6 : (rhe (u * (10 : ℚ) ^ prec) : ℚ) = 0 := by rw [← pyRound_idem, h4, zero_mul]
    exact ⟨by omega, by exact_mod_cast h6, rfl⟩

theorem natAbs_round {u : ℚ} (hu : 0 ≤ u) (prec : ℕ) :
    (((rhe (u * (10 : ℚ) ^ prec)).natAbs : ℕ) : ℚ) / 10 ^ prec = pyRound u prec := by
  have hz := rhe_nonneg (mul_nonneg hu (ten_pos (prec : ℤ)).le)
  rw [zpow_natCast] at hz
  unfold pyRound
  rw [zpow_natCast]
  congr 1
  have : (((rhe (u * (10 : ℚ) ^ prec)).natAbs : ℤ) : ℚ) = (rhe (u * (10 : ℚ) ^ prec) : ℚ) := by
    rw [Int.natAbs_of_nonneg hz]
  rw [← this, Int.cast_natCast]

theorem shortText_bracket {u : ℚ} (hu : 0 ≤ u) (prec : ℕ) (e : Option ℤ) :
    Bracket prec (shortText u prec) ⟨prec, pyRound u prec, e⟩ := by
  rcases shortText_cases hu prec with ⟨hp, g, hg, hne, hval, h⟩ | ⟨-, h⟩ | ⟨rfl, h0, h⟩
  · rw [h]
    refine .explicit _ _ _ _ _ hp ⟨[], g, padDigits prec (rhe (u * (10 : ℚ) ^ prec)).natAbs, ?_, .inl rfl, fun c hc => .inl (hg c hc), ?_, padDigits_digits _ _,
      padDigits_length _ _, ?_⟩
    · rw [if_neg (by omega), List.nil_append]
    · obtain ⟨c, hc⟩ := List.exists_mem_of_ne_nil g hne
      exact ⟨c, hc, hg c hc⟩
    · rw [List.filter_eq_self.2 hg, hval, natAbs_round hu]
      simp [signVal]
  · rw [h]
    have hb := Bracket.units prec (natStr (rhe (u * (10 : ℚ) ^ prec)).natAbs) e (natStr_digits _) (natStr_ne _)
    rw [digitsVal_natStr, natAbs_round hu] at hb
    exact hb
  · rw [h]
    have : pyRound u 0 = 0 := by
      have h := natAbs_round hu 0
      rw [h0] at h
      simpa using h.symm
    rw [show ((0 : ℕ) : ℤ) = 0 from rfl, this]
    exact .zero 0 e

/-- The shorthand notation before the alignment. -/
def shortStr (q u : ℚ) (e : Option ℤ) (p : FmtParts) (prec : ℕ) (t : Char) (options : Str) : Str :=
  let tail := '(' :: (shortText u prec ++ ')' :: (expStr e t options ++ percentStr options))
  fixedStr q p.sign.head? (zeroWidth p tail.length) (p.comma ≠ []) prec t ++ tail

theorem formatShorthand_fin {p : FmtParts} (hv : p.Valid) {q u : ℚ} (hu : u ≠ 0) {t : Char} (ht : t = 'f' ∨ t = 'F')
    (e : Option ℤ) (prec : ℕ) (options : Str) :
    formatShorthand (.fin q) (.fin u) e p prec t options =
      if ShortOverflow u prec then .error .overflowError
      else if p.width ≠ [] then robustAlign (shortStr q u e p prec t options) p.fill (effectiveAlign p) p.width
      else .ok (shortStr q u e p prec t options) := by
  have hse : specialError (.fin u) = false := by simp [specialError, FNum.truthy, FNum.isInfinite, hu]
  have hN : fmtSuffixN (.fin u) p prec t = fixedSuffix prec t := by simp [fmtSuffixN, hse]
  have hlN : ∀ s, latexNom options (.fin q) s = s := by intro s; simp [latexNom]
  have hs := sign_head hv
  have f1 := fun z => pyFormat_fixed q _ hs z (decide (p.comma ≠ [])) prec ht
  have hun : uncertStr (.fin u) prec t options =
      if ShortOverflow u prec then .error .overflowError else .ok (shortText u prec) := by
    simp only [uncertStr, if_neg hu]; exact shorthandUncert_eq u prec
  unfold formatShorthand
  by_cases hov : ShortOverflow u prec
  · rw [if_pos hov] at hun ⊢
    rw [hun]
    rfl
  rw [if_neg hov] at hun ⊢
  simp only [hN, hlN, hun]
  have ha : '(' :: shortText u prec ++ ')' :: expStr e t options ++ percentStr options =
      '(' :: (shortText u prec ++ ')' :: (expStr e t options ++ percentStr options)) := by simp
  show (pyFormat _ _).bind _ = _
  rw [ha]
  have hf : pyFormat (.fin q) ((if p.zero ≠ [] ∧ p.width ≠ [] then p.sign ++ p.zero ++ natStr (digitsVal p.width -
      ('(' :: (shortText u prec ++ ')' :: (expStr e t options ++ percentStr options))).length) ++ p.comma
      else p.sign ++ p.comma) ++ fixedSuffix prec t) =
      .ok (fixedStr q p.sign.head? (zeroWidth p ('(' :: (shortText u prec ++ ')' :: (expStr e t options ++
        percentStr options))).length) (p.comma ≠ []) prec t) := by
    unfold zeroWidth
    by_cases hz : p.zero ≠ [] ∧ p.width ≠ []
    · rw [if_pos hz, if_pos hz.symm, prefix_zero hv hz.1, f1]
    · rw [if_neg hz, if_neg (fun h => hz h.symm), prefix_plain hv, f1]
  rw [hf]
  rfl

theorem formatShorthand_displays {p : FmtParts} (hv : p.Valid) {q u : ℚ} (hu : 0 < u) {t : Char} (ht : t = 'f' ∨ t = 'F')
    {e : Option ℤ} {prec : ℕ} {options out : Str}
    (h : formatShorthand (.fin q) (.fin u) e p prec t options = .ok out) :
    Displays out ⟨prec, pyRound q prec, e⟩ ⟨prec, pyRound u prec, e⟩ (decide ('%' ∈ options)) := by
  rw [formatShorthand_fin hv hu.ne' ht] at h
  by_cases hov : ShortOverflow u prec
  · rw [if_pos hov] at h; cases h
  rw [if_neg hov] at h
  have hpad : ∃ c i j, out = List.replicate i c ++ shortStr q u e p prec t options ++ List.replicate j c := by
    by_cases hw : p.width ≠ []
    · rw [if_pos hw] at h
      obtain ⟨⟨i, j, h⟩, -⟩ := robustAlign_ok h
      exact ⟨_, i, j, h⟩
    · rw [if_neg hw] at h
      injection h with h
      exact ⟨' ', 0, 0, by simp [h]⟩
  obtain ⟨c, i, j, rfl⟩ := hpad
  unfold shortStr
  simp only []
  have hN := fun z => fixedStr_fixed q p.sign.head? z (p.comma ≠ []) prec ht
  have hU := shortText_bracket hu.le prec e
  have hx := expStr_opt e ht options
  rcases percentStr_cases options with ⟨h3, h4, h5⟩ | ⟨h3, h4⟩
  · rw [decide_eq_true h3]
    have := Displays.shorthandPercent _ _ _ _ ⟨prec, pyRound q prec, e⟩ ⟨prec, pyRound u prec, e⟩ c i j
      (hN (zeroWidth p ('(' :: (shortText u prec ++ ')' :: (expStr e t options ++ percentStr options))).length)) hU hx rfl h4
    simpa using this
  · rw [decide_eq_false h3, h4, List.append_nil]
    exact Displays.shorthand _ _ _ ⟨prec, pyRound q prec, e⟩ ⟨prec, pyRound u prec, e⟩ c i j (hN _) hU hx rfl

end Unc
