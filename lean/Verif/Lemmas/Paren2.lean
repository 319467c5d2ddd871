import Verif.Lemmas.Paren

/-! # Evaluation of the parser on the shorthand notation -/

set_option autoImplicit false

namespace Unc

theorem Decimal.isD (d : Decimal) : AllD (decDigits d.fp) := d.fpDigits

theorem decimal_value (d : Decimal) (e : ℤ) :
    (digitsVal (d.ip ++ decDigits d.fp) : ℚ) * (10 : ℚ) ^ (e - ((decDigits d.fp).length : ℤ)) = d.value * 10 ^ e := by
  unfold Decimal.value Decimal.places decDigits
  rw [zpow_sub₀ (by norm_num), zpow_natCast]
  ring

theorem signVal_mul (sg : Str) (q : ℚ) : (if sg = ['-'] then -q else q) = signVal sg * q := by
  unfold signVal
  split_ifs <;> ring

/-- `float()` of a decimal number. -/
theorem pyFloat_text {sg : Str} (hsg : IsSign sg) (d : Decimal) :
    pyFloat (sg ++ d.text) = some (.fin (signVal sg * d.value)) := by
  have := pyFloat_decimal (a := []) (b := []) (sg := sg) (ip := d.ip) (d := d.fp) (ex := []) (e := 0) (by simp) (by simp)
    hsg d.ipDigits d.isD d.some_digit rfl (by simp) (by simp)
  rw [decimal_value] at this
  simp only [List.nil_append, List.append_nil, ← d.text_eq, zpow_zero, mul_one] at this
  rw [this, signVal_mul]

theorem pow10_ok {n : ℤ} (h : n ≤ 308) : (PyText.pow10 n : PyRes FNum) = .ok (.fin (10 ^ n)) := by
  show (Unc.pow10 n).map FNum.fin = _
  unfold Unc.pow10
  rw [if_neg (by omega)]
  rfl

theorem pow10_error {n : ℤ} (h : 308 < n) : (PyText.pow10 n : PyRes FNum) = .error .overflowError := by
  show (Unc.pow10 n).map FNum.fin = _
  unfold Unc.pow10
  rw [if_pos h]
  rfl

theorem pyInt_units {ds : Str} (h : IsDigits ds) (hne : ds ≠ []) : pyInt ds = some (digitsVal ds : ℤ) := by
  have := pyInt_digits (a := []) (b := []) (s := ds) (by simp) (by simp) (takeSign_digits h) h hne
    (fun c hc => digit_numChar (h c hc))
  simpa using this

theorem expFactor_eq {e : Option Str} {n : ℤ} (h : e = none ∧ n = 0 ∨ ∃ t, e = some t ∧ IntText t n) :
    (expFactor e : PyRes FNum) = PyText.pow10 n := by
  rcases h with ⟨rfl, rfl⟩ | ⟨t, rfl, ht⟩
  · rw [pow10_ok (by norm_num)]; simp [expFactor, PyText.one]; rfl
  · cases t with
    | nil => exact absurd rfl ht.ne_nil
    | cons c t =>
      unfold expFactor
      simp only [ht.nrmlze, orValueError]
      rfl

theorem numDigits_eq (d : Decimal) :
    (match d.fp.map ('.' :: ·) with | none => 0 | some d => d.length - 1) = d.places := by
  unfold Decimal.places
  cases d.fp <;> simp

theorem uncertOf_units {mu : Option NumMatch} {dec : Option Str} {t : Str} {n : ℕ} {p : ℕ}
    (hex : ∀ u, mu = some u → ¬ (u.dec.isSome ∨ u.text ∈ ["nan".toList, "NAN".toList, "inf".toList, "INF".toList]))
    (ht : (match mu with | none => ['1'] | some u => u.int.getD []) = t) (hn : pyInt t = some (n : ℤ))
    (hp : (match dec with | none => 0 | some d => d.length - 1) = p) :
    (uncertOf mu dec : PyRes FNum) = if 308 < p then .error .overflowError else .ok (.fin ((n : ℚ) * 10 ^ (-(p : ℤ)))) := by
  have key : ∀ P : ℕ, P = p → (do
      let d : FNum ← PyText.pow10 (P : ℤ)
      PyText.divInt (n : ℤ) d : PyRes FNum) =
      if 308 < p then .error .overflowError else .ok (.fin ((n : ℚ) * 10 ^ (-(p : ℤ)))) := by
    rintro P rfl
    split_ifs with h
    · rw [pow10_error (by exact_mod_cast h)]; rfl
    · rw [pow10_ok (by exact_mod_cast Nat.le_of_not_lt h)]
      show (if (10 : ℚ) ^ (P : ℤ) = 0 then _ else _) = _
      rw [if_neg (ne_of_gt (zpow_pos (by norm_num) _))]
      show Except.ok _ = _
      congr 2
      rw [zpow_neg]
      push_cast
      rfl
  cases mu with
  | none =>
    subst ht
    unfold uncertOf
    simp only [hn, orValueError]
    exact key _ hp
  | some u =>
    have h1 := hex u rfl
    have ht' : u.int.getD [] = t := ht
    unfold uncertOf
    simp only [if_neg h1, ht', hn, orValueError]
    exact key _ hp

theorem pyFloat_nan (upper : Bool) :
    pyFloat (if upper then "NAN".toList else "nan".toList) = some .nan := by
  cases upper <;> decide +kernel

theorem pyFloat_inf (upper : Bool) :
    pyFloat (if upper then "INF".toList else "inf".toList) = some (.inf false) := by
  cases upper <;> decide +kernel

/-- The uncertainty read: an error only for the units of a last digit that is out of range. -/
theorem uncertOf_eq (d : Decimal) (u : ShortUncert) (hp : u.InUnits → d.places ≤ 308) :
    (uncertOf u.found (d.fp.map ('.' :: ·)) : PyRes FNum) = .ok (u.value (10 ^ (-(d.places : ℤ)))) := by
  cases u with
  | implicit =>
    have hp := hp trivial
    rw [uncertOf_units (t := ['1']) (n := 1) (by simp [ShortUncert.found]) rfl (by decide +kernel) (numDigits_eq d),
      if_neg (by omega)]
    simp [ShortUncert.value]
  | units ds h hne =>
    have hp := hp trivial
    rw [uncertOf_units (t := ds) (n := digitsVal ds) (p := d.places) ?_ rfl (pyInt_units h hne) (numDigits_eq d),
      if_neg (by omega)]
    · simp [ShortUncert.value]
    · rintro u hu
      obtain rfl := Option.some.inj hu
      obtain ⟨c, r, rfl⟩ := List.exists_cons_of_ne_nil hne
      have hc := h c (by simp)
      have h1 := digit_ne hc (show isDigit 'n' = false from rfl)
      have h2 := digit_ne hc (show isDigit 'N' = false from rfl)
      have h3 := digit_ne hc (show isDigit 'i' = false from rfl)
      have h4 := digit_ne hc (show isDigit 'I' = false from rfl)
      simp [h1, h2, h3, h4]
  | explicit d' h =>
    unfold uncertOf ShortUncert.found
    simp only [Option.isSome_map, h, true_or, if_true]
    have := pyFloat_text (sg := []) (.inl rfl) d'
    show orValueError (pyFloat d'.text) = _
    rw [List.nil_append] at this
    rw [this]
    simp [orValueError, ShortUncert.value, signVal]
  | nan upper =>
    have hm : (if upper then "NAN".toList else "nan".toList) ∈
        ["nan".toList, "NAN".toList, "inf".toList, "INF".toList] := by cases upper <;> decide +kernel
    unfold uncertOf ShortUncert.found
    simp only [hm, or_true, if_true]
    show orValueError (pyFloat _) = _
    rw [pyFloat_nan]
    rfl
  | inf upper =>
    have hm : (if upper then "INF".toList else "inf".toList) ∈
        ["nan".toList, "NAN".toList, "inf".toList, "INF".toList] := by cases upper <;> decide +kernel
    unfold uncertOf ShortUncert.found
    simp only [hm, or_true, if_true]
    show orValueError (pyFloat _) = _
    rw [pyFloat_inf]
    rfl

theorem IsSign.head_toList {sg : Str} (h : IsSign sg) : sg.head?.toList = sg := by
  rcases h with rfl | rfl | rfl <;> rfl

theorem mul_fin (x : FNum) (f : ℚ) : (PyText.mul x (.fin f) : FNum) = x.scale f := rfl

/-- The parser of the shorthand notation. -/
theorem parseError_ok {sg : Str} (hsg : IsSign sg) (d : Decimal) (u : ShortUncert) {x : Str} {n : ℤ}
    (hx : ExpPart x n) (hn : n ≤ 308) (hp : u.InUnits → d.places ≤ 308) :
    (parseErrorInParentheses (sg ++ (d.text ++ (u.text ++ x))) : PyRes (FNum × FNum)) =
      .ok (.fin (signVal sg * d.value * 10 ^ n), (u.value (10 ^ (-(d.places : ℤ)))).scale (10 ^ n)) := by
  obtain ⟨e, he, hf⟩ := parenRe_first hsg d u hx
  unfold parseErrorInParentheses
  rw [hf]
  have hv : (PyText.ofStr (sg ++ d.text) : Option FNum) = some (.fin (signVal sg * d.value)) := pyFloat_text hsg d
  show (expFactor e : PyRes FNum).bind (fun factor => (orValueError (PyText.ofStr (sg.head?.toList ++ d.text))).bind fun v =>
    (uncertOf u.found (d.fp.map ('.' :: ·)) : PyRes FNum).bind fun uncert =>
      .ok (PyText.mul v factor, PyText.mul uncert factor)) = _
  rw [expFactor_eq he, pow10_ok hn, hsg.head_toList, hv, uncertOf_eq d u hp]
  rfl

/-- Exponents out of the range of floats. -/
theorem parseError_overflow {sg : Str} (hsg : IsSign sg) (d : Decimal) (u : ShortUncert) {x : Str} {n : ℤ}
    (hx : ExpPart x n) (hn : 308 < n) :
    (parseErrorInParentheses (sg ++ (d.text ++ (u.text ++ x))) : PyRes (FNum × FNum)) = .error .overflowError := by
  obtain ⟨e, he, hf⟩ := parenRe_first hsg d u hx
  unfold parseErrorInParentheses
  rw [hf]
  show (expFactor e : PyRes FNum).bind _ = _
  rw [expFactor_eq he, pow10_error hn]
  rfl

/-! ### The whole parser -/

theorem ShortUncert.no_pm (u : ShortUncert) : '/' ∉ u.text ∧ '±' ∉ u.text := by
  have hD : ∀ {ds : Str}, IsDigits ds → ∀ c, isDigit c = false → c ∉ ds := by
    intro ds h c hc hm
    rw [h c hm] at hc
    exact absurd hc (by decide)
  cases u with
  | implicit => simp [ShortUncert.text]
  | units ds h hne => simp [ShortUncert.text, hD h _ (show isDigit '/' = false from rfl), hD h _ (show isDigit '±' = false from rfl)]
  | explicit d h =>
    have h1 := hD d.ipDigits
    have h2 := hD d.fpDigits
    rw [ShortUncert.text, d.text_eq]
    rcases hf : d.fp with _ | fp
    · rw [hf] at h; simp at h
    · rw [hf] at h2
      simp only [Option.getD_some] at h2
      simp [decPart, h1 _ (show isDigit '/' = false from rfl), h1 _ (show isDigit '±' = false from rfl),
        h2 _ (show isDigit '/' = false from rfl), h2 _ (show isDigit '±' = false from rfl)]
  | nan upper => cases upper <;> decide +kernel
  | inf upper => cases upper <;> decide +kernel

theorem Decimal.chars (d : Decimal) : ∀ c ∈ d.text, isDigit c = true ∨ c = '.' := by
  intro c hc
  rw [d.text_eq] at hc
  rcases List.mem_append.1 hc with h | h
  · exact .inl (d.ipDigits c h)
  · have h2 := d.fpDigits
    rcases hf : d.fp with _ | fp
    · rw [hf] at h; simp [decPart] at h
    · rw [hf] at h h2
      rcases List.mem_cons.1 h with rfl | h
      · exact .inr rfl
      · exact .inl (h2 c h)

theorem Decimal.ne_nil (d : Decimal) : d.text ≠ [] := by
  intro h
  have h2 := d.some_digit
  rw [d.text_eq] at h
  rcases hf : d.fp with _ | fp <;> rw [hf] at h h2 <;> simp_all [decPart]

/-- Characters of signs and decimals. -/
theorem signed_decimal_char {sg : Str} (hsg : IsSign sg) (d : Decimal) :
    ∀ c ∈ sg ++ d.text, isSpace c = false ∧ isDelim c = false := by
  intro c hc
  rcases List.mem_append.1 hc with hc | hc
  · rcases hsg with rfl | rfl | rfl
    · simp at hc
    · rw [List.mem_singleton.1 hc]; decide
    · rw [List.mem_singleton.1 hc]; decide
  · rcases d.chars c hc with h | rfl
    · exact ⟨digit_not_space h, digit_not_delim h⟩
    · decide

theorem ShortUncert.last (u : ShortUncert) : ∀ c, u.text.getLast? = some c → c = ')' := by
  intro c hc
  cases u with
  | implicit => simp [ShortUncert.text] at hc
  | units ds h hne =>
    rw [ShortUncert.text, List.getLast?_cons, List.getLast?_append] at hc
    simpa using hc.symm
  | explicit d h =>
    rw [ShortUncert.text, List.getLast?_cons, List.getLast?_append] at hc
    simpa using hc.symm
  | nan upper => cases upper <;> simpa [ShortUncert.text] using hc.symm
  | inf upper => cases upper <;> simpa [ShortUncert.text] using hc.symm

theorem globalExpRe_none {s : Str} (h : s.head? ≠ some '(') : Re.first globalExpRe s = none := by
  refine Re.first_none (Re.seq_nil ?_)
  intro a t hm
  have := Re.mem_lit.1 hm
  exact absurd (by rw [this]; rfl) h

theorem strToNumber_simple {s : Str} (h : s.head? ≠ some '(') (h1 : '/' ∉ s) (h2 : '±' ∉ s) :
    (strToNumberWithUncert s : PyRes (FNum × FNum)) = parseErrorInParentheses s := by
  unfold strToNumberWithUncert
  rw [if_neg (fun hh => h hh.1)]
  simp only [globalExpRe_none h]
  show (match Re.first pmRe s with | some (n, u) => _ | none => _) = _
  rw [pmRe_none h1 h2]

theorem signed_head {sg : Str} (hsg : IsSign sg) (d : Decimal) (rest : Str) :
    ∃ c, (sg ++ (d.text ++ rest)).head? = some c ∧ isSpace c = false ∧ isDelim c = false := by
  have hne : sg ++ d.text ≠ [] := by simp [d.ne_nil]
  obtain ⟨c, r, hcr⟩ := List.exists_cons_of_ne_nil hne
  refine ⟨c, by rw [← List.append_assoc, hcr]; rfl, signed_decimal_char hsg d c (by rw [hcr]; simp)⟩

theorem paren_strip {a b sg : Str} (ha : IsSpaces a) (hb : IsSpaces b) (hsg : IsSign sg) (d : Decimal) (u : ShortUncert)
    {x : Str} {n : ℤ} (hx : ExpPart x n) :
    strip (a ++ (sg ++ (d.text ++ (u.text ++ x))) ++ b) = sg ++ (d.text ++ (u.text ++ x)) := by
  refine stripBy_pad ha hb ?_ ?_
  · intro c hc
    obtain ⟨c', h1, h2, -⟩ := signed_head hsg d (u.text ++ x)
    rw [h1] at hc
    exact Option.some.inj hc ▸ h2
  · intro c hc
    rw [List.getLast?_append_of_ne_nil _ (by simp [d.ne_nil])] at hc
    by_cases hxn : x = []
    · subst hxn
      rw [List.append_nil] at hc
      by_cases hun : u.text = []
      · rw [hun, List.append_nil] at hc
        exact (signed_decimal_char hsg d c (by simp [List.mem_of_mem_getLast? hc])).1
      · rw [List.getLast?_append_of_ne_nil _ hun] at hc
        rw [u.last c hc]
        rfl
    · rw [List.getLast?_append_of_ne_nil _ (by simp [hxn]), List.getLast?_append_of_ne_nil _ hxn] at hc
      exact hx.last c hc

theorem fromstr_paren {a b sg : Str} (ha : IsSpaces a) (hb : IsSpaces b) (hsg : IsSign sg) (d : Decimal)
    (u : ShortUncert) {x : Str} {n : ℤ} (hx : ExpPart x n) :
    (ufloatFromstr (a ++ (sg ++ (d.text ++ (u.text ++ x))) ++ b) : PyRes (FNum × FNum)) =
      (parseErrorInParentheses (sg ++ (d.text ++ (u.text ++ x)))).bind fun p =>
        if PyText.isNegFinite p.2 then throw .negativeStdDev else pure p := by
  unfold ufloatFromstr
  rw [paren_strip ha hb hsg d u hx]
  obtain ⟨c, h1, -, h3⟩ := signed_head hsg d (u.text ++ x)
  have hno : ∀ c, isDelim c = true → c ∉ sg ++ d.text := fun c hc hm => by
    rw [(signed_decimal_char hsg d c hm).2] at hc
    exact absurd hc (by decide)
  have hpm : ∀ c, isDelim c = true → c ∉ u.text → c ∉ x → c ∉ sg ++ (d.text ++ (u.text ++ x)) := by
    intro c hc hcu hcx hm
    rw [← List.append_assoc] at hm
    rcases List.mem_append.1 hm with hm | hm
    · exact hno c hc hm
    · rcases List.mem_append.1 hm with hm | hm
      · exact hcu hm
      · exact hcx hm
  rw [strToNumber_simple (by rw [h1]; rintro h; rw [Option.some.inj h] at h3; exact absurd h3 (by decide))
    (hpm _ (by decide) u.no_pm.1 hx.no_pm.1) (hpm _ (by decide) u.no_pm.2 hx.no_pm.2.1)]
  rfl

theorem ShortUncert.value_nonneg (u : ShortUncert) {unit f : ℚ} (hu : 0 < unit) (hf : 0 < f) :
    (PyText.isNegFinite ((u.value unit).scale f) : Bool) = false := by
  have h : ∀ q : ℚ, 0 ≤ q → (PyText.isNegFinite ((FNum.fin q).scale f) : Bool) = false := by
    intro q hq
    show ((FNum.fin (q * f)).isNeg && _) = false
    have : ¬ (q * f < 0) := not_lt.2 (by positivity)
    simp [FNum.isNeg, this]
  cases u with
  | implicit => exact h _ hu.le
  | units ds _ _ => exact h _ (by positivity)
  | explicit d _ => exact h _ (by unfold Decimal.value; positivity)
  | nan _ => rfl
  | inf _ => rfl

end Unc
