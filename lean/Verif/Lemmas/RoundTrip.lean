import Verif.Lemmas.FormatPlan

/-!
# Parsing of the strings made by `format_num`
-/

set_option autoImplicit false

namespace Unc

/-- A number printed without thousands separator is a decimal number, possibly after a space. -/
theorem Fixed.decimal {t : Str} {p : ℕ} {q : ℚ} (h : Fixed t p q) (hc : ',' ∉ t) :
    ∃ a sg : Str, ∃ d : Decimal, t = a ++ (sg ++ d.text) ∧ (a = [] ∨ a = [' ']) ∧ IsSign sg ∧ d.places = p ∧ q = signVal sg * d.value := by
  obtain ⟨sg, ip, ds, rfl, hsg, hip, ⟨c, hci, hcd⟩, hds, hlen, hq⟩ := h
  have hipd : IsDigits ip := by
    intro c hc'
    rcases hip c hc' with h | rfl
    · exact h
    · exact absurd (by simp [hc']) hc
  rw [List.filter_eq_self.2 hipd] at hq
  have hne : ip ≠ [] := by rintro rfl; cases hci
  have hdec : ∃ d : Decimal, d.text = ip ++ (if p = 0 then [] else '.' :: ds) ∧ d.places = p ∧
      d.value = (digitsVal (ip ++ ds) : ℚ) / 10 ^ p := by
    by_cases hp : p = 0
    · subst hp
      obtain rfl : ds = [] := List.eq_nil_of_length_eq_zero hlen
      exact ⟨⟨ip, none, hipd, by simp [IsDigits], by simp [hne]⟩, by simp [Decimal.text], rfl,
        by simp [Decimal.value, Decimal.places]⟩
    · refine ⟨⟨ip, some ds, hipd, by simpa using hds, by simp [hne]⟩, by simp [Decimal.text, hp], by simp [Decimal.places, hlen], ?_⟩
      simp [Decimal.value, Decimal.places, hlen]
  obtain ⟨d, hd1, hd2, hd3⟩ := hdec
  rw [← hd3] at hq
  have hs : signVal [' '] = signVal [] := rfl
  rcases hsg with rfl | rfl | rfl | rfl
  · exact ⟨[], [], d, by rw [hd1]; simp, .inl rfl, .inl rfl, hd2, hq⟩
  · exact ⟨[], ['+'], d, by rw [hd1]; simp, .inl rfl, .inr (.inl rfl), hd2, hq⟩
  · exact ⟨[], ['-'], d, by rw [hd1]; simp, .inl rfl, .inr (.inr rfl), hd2, hq⟩
  · exact ⟨[' '], [], d, by rw [hd1]; simp, .inr rfl, .inl rfl, hd2, by rw [← hs]; exact hq⟩

/-- Exponents that are not in LaTeX. -/
inductive PlainExp : Str → Option ℤ → Prop
  | none : PlainExp [] none
  | e (c : Char) (hc : c = 'e' ∨ c = 'E') (t : Str) (n : ℤ) (h : PlainInt t n) : PlainExp (c :: t) (some n)
  | pretty (t : Str) (n : ℤ) (h : PlainInt t n) : PlainExp ("×10".toList ++ t.map toSup) (some n)

theorem expStr_plain (e : Option ℤ) {t : Char} (ht : t = 'f' ∨ t = 'F') {options : Str} (hL : printType options ≠ .latex) :
    PlainExp (expStr e t options) e := by
  cases e with
  | none => exact .none
  | some n =>
    unfold expStr
    simp only []
    cases h : printType options with
    | default =>
      rcases ht with rfl | rfl
      · exact .e _ (.inl rfl) _ _ (plainInt_expDigits n)
      · exact .e _ (.inr rfl) _ _ (plainInt_expDigits n)
    | pretty => exact .pretty _ _ (plainInt_intStr n)
    | latex => exact absurd h hL

theorem PlainInt.sup {t : Str} {n : ℤ} (h : PlainInt t n) : IntText (t.map toSup) n := by
  obtain ⟨sg, ds, h1, h2, h3, rfl, h5⟩ := h
  exact ⟨sg, ds, h1, h2, h3, .inr rfl, h5⟩

theorem PlainExp.part {x : Str} {e : Option ℤ} (h : PlainExp x e) : ExpPart x (e.getD 0) := by
  cases h with
  | none => exact .none
  | e c hc t n h =>
    rcases hc with rfl | rfl
    · exact .e _ _ h.intText
    · exact .E _ _ h.intText
  | pretty t n h => exact .times [] [] _ _ (by simp [IsSpaces]) (by simp [IsSpaces]) h.sup

theorem blanks_replicate (i : ℕ) : IsBlanks (List.replicate i ' ') := by
  intro c hc
  exact .inl (List.eq_of_mem_replicate hc)

theorem spaces_replicate (i : ℕ) : IsSpaces (List.replicate i ' ') := fun c hc => blank_space (blanks_replicate i) c hc

/-- A number in a field is read as its value. -/
theorem Fixed.floatText {m x : Str} {p : ℕ} {q : ℚ} {e : Option ℤ} (h : Fixed m p q) (hc : ',' ∉ m) (hx : PlainExp x e)
    (he : ∀ n ∈ e, n ≤ 308) (i j : ℕ) :
    FloatText (List.replicate i ' ' ++ (m ++ x) ++ List.replicate j ' ') (.fin (q * (10 : ℚ) ^ e.getD 0)) := by
  obtain ⟨a, sg, d, rfl, ha, hsg, -, hq⟩ := h.decimal hc
  have hA : IsBlanks (List.replicate i ' ' ++ a) := by
    intro c hc
    rcases List.mem_append.1 hc with hc | hc
    · exact blanks_replicate i c hc
    · rcases ha with rfl | rfl
      · cases hc
      · left; simpa using hc
  rw [hq]
  cases hx with
  | none =>
    have := FloatText.plain _ sg _ d hA (blanks_replicate j) hsg
    simpa using this
  | e c hc t n ht =>
    have := FloatText.exp _ sg _ d hA (blanks_replicate j) hsg c hc t n ht
    simpa using this
  | pretty t n ht =>
    have := FloatText.times _ sg _ d hA (blanks_replicate j) hsg [] [] _ blanks_nil blanks_nil n ht.sup (he n rfl)
    simpa using this

/-- The fields are padded with spaces only. -/
theorem pad_spaces {p : FmtParts} (hv : p.Valid) (hfill : p.fill = [] ∨ p.fill = [' ']) {s A : Str} {al : Char}
    (hz : p.zero ≠ [] → digitsVal p.width ≤ s.length) (h : robustAlign s p.fill al p.width = .ok A) :
    ∃ i j, A = List.replicate i ' ' ++ s ++ List.replicate j ' ' := by
  obtain ⟨⟨i, j, h1⟩, h2⟩ := robustAlign_ok h
  by_cases hz0 : p.zero = []
  · have : fillChar p.fill p.width = ' ' := by
      rcases hfill with h | h
      · rw [h]
        unfold fillChar
        simp only []
        rw [if_neg (hv.width_zero hz0)]
      · rw [h]; rfl
    rw [this] at h1
    exact ⟨i, j, h1⟩
  · exact ⟨0, 0, by rw [h2 (hz hz0)]; simp⟩

theorem fixedStr_no_comma' {p : FmtParts} (hc : p.comma = []) (q : ℚ) (sign : Option Char) (zero : Option ℕ) (prec : ℕ) {t : Char}
    (ht : t = 'f' ∨ t = 'F') : ',' ∉ fixedStr q sign zero (p.comma ≠ []) prec t := by
  have := fixedStr_no_comma q sign zero prec ht
  rw [hc]
  simpa using this

theorem zeroWidth_length {p : FmtParts} (hw : p.width ≠ []) (hz : p.zero ≠ []) (q : ℚ) (sign : Option Char) (comma : Bool)
    (prec : ℕ) {t : Char} (ht : t = 'f' ∨ t = 'F') (k : ℕ) :
    digitsVal p.width - k ≤ (fixedStr q sign (zeroWidth p k) comma prec t).length := by
  have h : zeroWidth p k = some (digitsVal p.width - k) := by unfold zeroWidth; rw [if_pos ⟨hw, hz⟩]
  rw [h]
  exact fixedStr_length q sign _ comma prec ht

theorem pm_plain {options : Str} (hL : printType options ≠ .latex) :
    IsPm (pmSymbol options) ∧ (grouping options).1 = ['('] ∧ (grouping options).2 = [')'] := by
  unfold printType at hL
  unfold pmSymbol grouping printType
  by_cases h1 : 'P' ∈ options
  · simp only [if_pos h1]
    exact ⟨.inr rfl, by decide, by decide⟩
  · by_cases h2 : 'L' ∈ options
    · rw [if_neg h1, if_pos h2] at hL
      exact absurd rfl hL
    · simp only [if_neg h1, if_neg h2]
      exact ⟨.inl rfl, by decide, by decide⟩

/-- The ± notation is read back. -/
theorem formatPm_parsed {p : FmtParts} (hv : p.Valid) (hcomma : p.comma = []) (hfill : p.fill = [] ∨ p.fill = [' '])
    {q u : ℚ} (hu : 0 < u) {t : Char} (ht : t = 'f' ∨ t = 'F') {e : Option ℤ} (he : ∀ n ∈ e, n ≤ 308)
    {prec : ℕ} {options out : Str} (hpe : '%' ∉ options) (hL : printType options ≠ .latex)
    (h : formatPm (.fin q) (.fin u) e p prec t options = .ok out) :
    (ufloatFromstr out : PyRes (FNum × FNum)) =
      .ok (.fin (pyRound q prec * (10 : ℚ) ^ e.getD 0), .fin (pyRound u prec * (10 : ℚ) ^ e.getD 0)) := by
  rw [formatPm_fin hv hu.ne' ht] at h
  simp only [] at h
  have hx := expStr_plain e ht hL
  have hN := fixedStr_fixed q p.sign.head? (zeroWidth p (expStr e t options).length) (p.comma ≠ []) prec ht
  have hU := fixedStr_fixed u none (zeroWidth p (expStr e t options).length) (p.comma ≠ []) prec ht
  have hNc := fixedStr_no_comma' hcomma q p.sign.head? (zeroWidth p (expStr e t options).length) prec ht
  have hUc := fixedStr_no_comma' hcomma u none (zeroWidth p (expStr e t options).length) prec ht
  obtain ⟨hpm, hg1, hg2⟩ := pm_plain hL
  have hps : percentStr options = [] := by simp [percentStr, hpe]
  have hu0 := pyRound_nonneg hu.le prec
  have hpos := ten_pos (e.getD 0)
  have hw : ∀ k : ℚ, 0 < k → ((FNum.fin (pyRound u prec * k)).isNeg = true → (FNum.fin (pyRound u prec * k)).isInfinite = true) := by
    intro k hk hneg
    simp only [FNum.isNeg, decide_eq_true_eq] at hneg
    exact absurd hneg (not_lt.2 (mul_nonneg hu0 hk.le))
  have nil : IsSpaces [] := by simp [IsSpaces]
  by_cases hwd : p.width = []
  · rw [if_pos hwd] at h
    injection h with h
    rw [← h]
    by_cases he0 : e.isSome
    · unfold wrapPm
      rw [if_pos ⟨hwd, he0⟩, hg1, hg2, hps, List.append_nil]
      have h1 := hN.floatText hNc .none (by simp) 0 0
      have h2 := hU.floatText hUc .none (by simp) 0 0
      simp only [Option.getD_none, zpow_zero, mul_one, List.replicate_zero, List.nil_append, List.append_nil] at h1 h2
      have hn : e.getD 0 ≤ 308 := by
        obtain ⟨n, rfl⟩ := Option.isSome_iff_exists.1 he0
        exact he n rfl
      have := C46_factored_exponent_partial [] _ _ _ _ [] _ _ _ nil nil h1 hpm h2 hx.part hn (by simpa using hw 1 one_pos)
      rw [List.nil_append, List.append_nil] at this
      simp only [List.append_assoc, List.cons_append, List.nil_append] at this ⊢
      rw [this]
      rfl
    · have he1 : e = none := by simpa using he0
      subst he1
      have h1 := hN.floatText hNc .none (by simp) 0 0
      have h2 := hU.floatText hUc .none (by simp) 0 0
      simp only [Option.getD_none, zpow_zero, mul_one, List.replicate_zero, List.nil_append, List.append_nil] at h1 h2
      unfold wrapPm
      rw [if_neg (by simp), hps, if_neg (by simp)]
      split_ifs
      · have := C46_factored_exponent_partial [] _ _ _ _ [] _ _ _ nil nil h1 hpm h2 .none (by norm_num) (by simpa using hw 1 one_pos)
        rw [hg1, hg2]
        simp only [List.append_assoc, List.cons_append, List.nil_append, List.append_nil] at this ⊢
        rw [this]
        simp [FNum.scale]
      · have := C46_no_exponent [] _ _ _ [] _ _ nil nil h1 hpm h2 (by simpa using hw 1 one_pos)
        simp only [List.append_assoc, List.nil_append, List.append_nil] at this ⊢
        rw [this]
        simp
  · rw [if_neg hwd] at h
    obtain ⟨A, hA, h⟩ := bind_ok h
    obtain ⟨B, hB, h⟩ := bind_ok h
    injection h with h
    rw [← h]
    have hlen : ∀ (q : ℚ) (sg : Option Char), p.zero ≠ [] → digitsVal p.width ≤
        (fixedStr q sg (zeroWidth p (expStr e t options).length) (p.comma ≠ []) prec t ++ expStr e t options).length := by
      intro q sg hz
      have := zeroWidth_length hwd hz q sg (p.comma ≠ []) prec ht (expStr e t options).length
      rw [List.length_append]
      omega
    obtain ⟨i, j, rfl⟩ := pad_spaces hv hfill (hlen _ _) hA
    obtain ⟨i', j', rfl⟩ := pad_spaces hv hfill (hlen _ _) hB
    have h1 := hN.floatText hNc hx he i j
    have h2 := hU.floatText hUc hx he i' j'
    unfold wrapPm
    rw [if_neg (fun h => hwd h.1), hps, if_neg (by simp)]
    split_ifs
    · have := C46_factored_exponent_partial [] _ _ _ _ [] _ _ _ nil nil h1 hpm h2 .none (by norm_num) (hw _ hpos)
      rw [hg1, hg2]
      simp only [List.append_assoc, List.cons_append, List.nil_append, List.append_nil] at this ⊢
      rw [this]
      simp [FNum.scale]
    · have := C46_no_exponent [] _ _ _ [] _ _ nil nil h1 hpm h2 (hw _ hpos)
      simp only [List.append_assoc, List.nil_append, List.append_nil] at this ⊢
      exact this

/-- The shorthand notation is read back. -/
theorem formatShorthand_parsed {p : FmtParts} (hv : p.Valid) (hcomma : p.comma = []) (hfill : p.fill = [] ∨ p.fill = [' '])
    {q u : ℚ} (hu : 0 < u) {t : Char} (ht : t = 'f' ∨ t = 'F') {e : Option ℤ} (he : ∀ n ∈ e, n ≤ 308)
    {prec : ℕ} {options out : Str} (hpe : '%' ∉ options) (hL : printType options ≠ .latex)
    (h : formatShorthand (.fin q) (.fin u) e p prec t options = .ok out) :
    (ufloatFromstr out : PyRes (FNum × FNum)) =
      .ok (.fin (pyRound q prec * (10 : ℚ) ^ e.getD 0), .fin (pyRound u prec * (10 : ℚ) ^ e.getD 0)) := by
  rw [formatShorthand_fin hv hu.ne' ht] at h
  by_cases hov : ShortOverflow u prec
  · rw [if_pos hov] at h; cases h
  rw [if_neg hov] at h
  have hx := expStr_plain e ht hL
  have hps : percentStr options = [] := by simp [percentStr, hpe]
  have hpad : ∃ i j, out = List.replicate i ' ' ++ shortStr q u e p prec t options ++ List.replicate j ' ' := by
    by_cases hw : p.width ≠ []
    · rw [if_pos hw] at h
      refine pad_spaces hv hfill ?_ h
      intro hz
      unfold shortStr
      simp only []
      rw [List.length_append]
      have := zeroWidth_length hw hz q p.sign.head? (p.comma ≠ []) prec ht
        ('(' :: (shortText u prec ++ ')' :: (expStr e t options ++ percentStr options))).length
      omega
    · rw [if_neg hw] at h
      injection h with h
      exact ⟨0, 0, by simp [h]⟩
  obtain ⟨i, j, rfl⟩ := hpad
  have hn : e.getD 0 ≤ 308 := by
    cases e with
    | none => simp
    | some n => exact he n rfl
  unfold shortStr
  simp only []
  rw [hps, List.append_nil]
  generalize hz : zeroWidth p _ = z
  have hN := fixedStr_fixed q p.sign.head? z (p.comma ≠ []) prec ht
  have hNc := fixedStr_no_comma' hcomma q p.sign.head? z prec ht
  obtain ⟨a, sg, d, ht', ha, hsg, hpl, hq⟩ := hN.decimal hNc
  rw [ht']
  have hA : IsSpaces (List.replicate i ' ' ++ a) := by
    intro c hc
    rcases List.mem_append.1 hc with hc | hc
    · exact spaces_replicate i c hc
    · rcases ha with rfl | rfl
      · cases hc
      · obtain rfl : c = ' ' := by simpa using hc
        rfl
  have key : ∃ U : ShortUncert, U.text = '(' :: (shortText u prec ++ [')']) ∧
      U.value ((10 : ℚ) ^ (-(d.places : ℤ))) = .fin (pyRound u prec) ∧ (U.InUnits → d.places ≤ 308) := by
    rw [hpl]
    rcases shortText_cases hu.le prec with ⟨hp, g, hg, hne, hval, h⟩ | ⟨h308, h⟩ | ⟨rfl, h0, h⟩
    · refine ⟨.explicit ⟨g, some (padDigits prec (rhe (u * (10 : ℚ) ^ prec)).natAbs), hg, padDigits_digits _ _, by simp [hne]⟩ rfl, ?_, ?_, False.elim⟩
      · rw [h]; rfl
      · have hval' : digitsVal (g ++ (some (padDigits prec (rhe (u * (10 : ℚ) ^ prec)).natAbs)).getD []) =
          (rhe (u * (10 : ℚ) ^ prec)).natAbs := hval
        show FNum.fin (Decimal.value _) = _
        unfold Decimal.value Decimal.places
        simp only [hval']
        rw [← natAbs_round hu.le]
        simp [padDigits_length]
    · refine ⟨.units (natStr (rhe (u * (10 : ℚ) ^ prec)).natAbs) (natStr_digits _) (natStr_ne _), ?_, ?_, fun _ => not_lt.1 fun h => hov (h308 h)⟩
      · rw [h]; rfl
      · show FNum.fin _ = _
        rw [digitsVal_natStr, ← natAbs_round hu.le, zpow_neg, zpow_natCast, div_eq_mul_inv]
    · refine ⟨.explicit ⟨['0'], some [], by simp [IsDigits]; rfl, by simp [IsDigits], by simp⟩ rfl, ?_, ?_, False.elim⟩
      · rw [h]; rfl
      · rw [← natAbs_round hu.le, h0]
        show FNum.fin _ = _
        simp [Decimal.value, digitsVal, digitVal]
  obtain ⟨U, hU1, hU2, hU3⟩ := key
  have := C45_shorthand _ sg _ _ d U _ hA (spaces_replicate j) hsg hx.part hn hU3
  rw [hU1, hU2] at this
  simp only [List.append_assoc, List.cons_append, List.nil_append] at this ⊢
  rw [this, hq]
  rfl

end Unc
