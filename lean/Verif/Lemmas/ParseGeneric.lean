import Verif.Lemmas.ParsePm
import Verif.Spec.FloatParse

/-! # The parser, for any type of floats -/

set_option autoImplicit false

namespace Unc

/-- The value. -/
def scaleExp (x : FNum) (e : Option ℤ) : FNum := match e with | none => x | some n => x.scale (10 ^ n)

theorem WrittenNum.floatText {t : Str} {x : FNum} {e : Option ℤ} (h : WrittenNum t x e) : FloatText t (scaleExp x e) := by
  cases h with
  | plain a sg b d ha hb hsg => exact .plain a sg b d ha hb hsg
  | exp a sg b d ha hb hsg c hc t n ht => exact .exp a sg b d ha hb hsg c hc t n ht
  | times a sg b d ha hb hsg u v t hu hv n ht hn => exact .times a sg b d ha hb hsg u v t hu hv n ht hn
  | nan a sg b t ha hb hsg ht => exact .nan a sg b t ha hb hsg ht
  | inf a sg b t ha hb hsg ht => exact .inf a sg b t ha hb hsg ht

theorem WrittenNum.lstrip {t : Str} {x : FNum} {e : Option ℤ} (h : WrittenNum t x e) :
    ∃ a t', t = a ++ t' ∧ IsBlanks a ∧ WrittenNum t' x e ∧ (∀ c, t'.head? = some c → isSpace c = false ∧ c ≠ '(') ∧ t' ≠ [] := by
  cases h with
  | plain a sg b d ha hb hsg =>
    refine ⟨a, [] ++ (sg ++ d.text) ++ b, by simp, ha, .plain [] sg b d blanks_nil hb hsg, ?_, by simp [d.ne_nil]⟩
    have := decimal_head hsg d b
    simpa using this
  | exp a sg b d ha hb hsg e he t n ht =>
    refine ⟨a, [] ++ (sg ++ (d.text ++ e :: t)) ++ b, by simp, ha, .exp [] sg b d blanks_nil hb hsg e he t n ht, ?_, by simp⟩
    have := decimal_head hsg d (e :: t ++ b)
    simpa using this
  | times a sg b d ha hb hsg u v t hu hv n ht hn =>
    refine ⟨a, [] ++ (sg ++ d.text) ++ u ++ '×' :: (v ++ '1' :: '0' :: (t ++ b)), by simp, ha,
      .times [] sg b d blanks_nil hb hsg u v t hu hv n ht hn, ?_, by simp⟩
    have := decimal_head hsg d (u ++ '×' :: (v ++ '1' :: '0' :: (t ++ b)))
    simpa using this
  | nan a sg b t ha hb hsg ht =>
    refine ⟨a, [] ++ (sg ++ t) ++ b, by simp, ha, .nan [] sg b t blanks_nil hb hsg ht, ?_, ?_⟩
    · have := name_head hsg (t := t) (by rcases ht with rfl | rfl | rfl <;> decide +kernel)
      intro c hc
      rw [List.nil_append, List.head?_append_of_ne_nil _ this.2.2] at hc
      exact this.1 c hc
    · rcases ht with rfl | rfl | rfl <;> simp
  | inf a sg b t ha hb hsg ht =>
    refine ⟨a, [] ++ (sg ++ t) ++ b, by simp, ha, .inf [] sg b t blanks_nil hb hsg ht, ?_, ?_⟩
    · have := name_head hsg (t := t) (by rcases ht with rfl | rfl | rfl <;> decide +kernel)
      intro c hc
      rw [List.nil_append, List.head?_append_of_ne_nil _ this.2.2] at hc
      exact this.1 c hc
    · rcases ht with rfl | rfl | rfl <;> simp

theorem WrittenNum.rstrip {t : Str} {x : FNum} {e : Option ℤ} (h : WrittenNum t x e) :
    ∃ t' b, t = t' ++ b ∧ IsBlanks b ∧ WrittenNum t' x e ∧ (∀ c, t'.getLast? = some c → isSpace c = false ∧ c ≠ ')') ∧ t' ≠ [] := by
  have hint : ∀ {t : Str} {n : ℤ}, IntText t n → ∀ c ∈ t, isSpace c = false ∧ c ≠ ')' := by
    intro t n ht c hc
    obtain ⟨h1, -, h2, -⟩ := expChar_cases (ht.chars c hc)
    exact ⟨h1, by rintro rfl; exact absurd h2 (by decide)⟩
  cases h with
  | plain a sg b d ha hb hsg =>
    refine ⟨a ++ (sg ++ d.text) ++ [], b, by simp, hb, .plain a sg [] d ha blanks_nil hsg, ?_, by simp [d.ne_nil]⟩
    intro c hc
    rw [List.append_nil, List.getLast?_append_of_ne_nil _ (by simp [d.ne_nil])] at hc
    have := signed_decimal_char hsg d c (List.mem_of_mem_getLast? hc)
    exact ⟨this.1, by rintro rfl; exact absurd this.2 (by decide)⟩
  | exp a sg b d ha hb hsg e he t n ht =>
    refine ⟨a ++ (sg ++ (d.text ++ e :: t)) ++ [], b, by simp, hb, .exp a sg [] d ha blanks_nil hsg e he t n ht, ?_, by simp⟩
    intro c hc
    rw [show a ++ (sg ++ (d.text ++ e :: t)) ++ [] = (a ++ sg ++ d.text ++ [e]) ++ t by simp,
      List.getLast?_append_of_ne_nil _ ht.intText.ne_nil] at hc
    exact hint ht.intText c (List.mem_of_mem_getLast? hc)
  | times a sg b d ha hb hsg u v t hu hv n ht hn =>
    refine ⟨a ++ (sg ++ d.text) ++ u ++ '×' :: (v ++ '1' :: '0' :: (t ++ [])), b, by simp, hb,
      .times a sg [] d ha blanks_nil hsg u v t hu hv n ht hn, ?_, by simp⟩
    intro c hc
    rw [show a ++ (sg ++ d.text) ++ u ++ '×' :: (v ++ '1' :: '0' :: (t ++ [])) =
      (a ++ (sg ++ d.text) ++ u ++ '×' :: (v ++ ['1', '0'])) ++ t by simp,
      List.getLast?_append_of_ne_nil _ ht.ne_nil] at hc
    exact hint ht c (List.mem_of_mem_getLast? hc)
  | nan a sg b t ha hb hsg ht =>
    refine ⟨a ++ (sg ++ t) ++ [], b, by simp, hb, .nan a sg [] t ha blanks_nil hsg ht, ?_, ?_⟩
    · have := name_head hsg (t := t) (by rcases ht with rfl | rfl | rfl <;> decide +kernel)
      intro c hc
      rw [List.append_nil, List.getLast?_append_of_ne_nil _ this.2.2] at hc
      exact this.2.1 c hc
    · rcases ht with rfl | rfl | rfl <;> simp
  | inf a sg b t ha hb hsg ht =>
    refine ⟨a ++ (sg ++ t) ++ [], b, by simp, hb, .inf a sg [] t ha blanks_nil hsg ht, ?_, ?_⟩
    · have := name_head hsg (t := t) (by rcases ht with rfl | rfl | rfl <;> decide +kernel)
      intro c hc
      rw [List.append_nil, List.getLast?_append_of_ne_nil _ this.2.2] at hc
      exact this.2.1 c hc
    · rcases ht with rfl | rfl | rfl <;> simp


/-! ### Any type of floats -/

section
variable {F : Type} [PyText F] {ρ : FNum → F}

/-- What is read: the number, times a power of ten. -/
def readNumber (ρ : FNum → F) (x : FNum) (e : Option ℤ) : PyRes F :=
  match e with
  | none => .ok (ρ x)
  | some n => (PyText.pow10 n : PyRes F).bind fun f => .ok (PyText.mul (ρ x) f)

theorem toFloat_number (hρ : ∀ s, (PyText.ofStr s : Option F) = (pyFloat s).map ρ) {t : Str} {x : FNum} {e : Option ℤ}
    (h : WrittenNum t x e) : (toFloat t : PyRes F) = readNumber ρ x e := by
  have hof : ∀ {t : Str} {x : FNum}, pyFloat t = some x → (toFloat t : PyRes F) = .ok (ρ x) := by
    intro t x h
    unfold toFloat
    rw [hρ, h]
    rfl
  cases h with
  | plain a sg b d ha hb hsg => exact hof (pyFloat_text_pad (blank_numSpace ha) (blank_numSpace hb) hsg d)
  | exp a sg b d ha hb hsg c hc t n ht =>
    exact hof (pyFloat_exp_pad (blank_numSpace ha) (blank_numSpace hb) hsg d hc ht)
  | times a sg b d ha hb hsg u v t hu hv n ht hn =>
    unfold toFloat
    have h1 : pyFloat (a ++ (sg ++ d.text) ++ u ++ '×' :: (v ++ '1' :: '0' :: (t ++ b))) = none := pyFloat_times (by simp)
    rw [hρ, h1]
    have hchars := signed_decimal_char hsg d
    have h2 : Re.first prettyRe ((a ++ (sg ++ d.text)) ++ (u ++ '×' :: (v ++ '1' :: '0' :: (t ++ b)))) =
        some (a ++ (sg ++ d.text), t ++ b) := by
      refine prettyRe_first ?_ ?_ ?_ (blank_space hu) (blank_space hv) ?_
      · intro hm
        rcases List.mem_append.1 hm with hm | hm
        · exact blank_no_newline ha hm
        · exact absurd (hchars _ hm).1 (by decide)
      · intro hm
        rcases List.mem_append.1 hm with hm | hm
        · rcases ha _ hm with h | h <;> exact absurd h (by decide)
        · exact absurd (hchars _ hm).2 (by decide)
      · intro c hc
        rw [List.getLast?_append_of_ne_nil _ (by simp [d.ne_nil])] at hc
        exact (hchars c (List.mem_of_mem_getLast? hc)).1
      · intro hm
        rcases List.mem_append.1 hm with hm | hm
        · exact (expChar_cases (ht.chars _ hm)).2.1 rfl
        · exact blank_no_newline hb hm
    have h3 : pyFloat (a ++ (sg ++ d.text)) = some (.fin (signVal sg * d.value)) := by
      have := pyFloat_text_pad (b := []) (blank_numSpace ha) (by simp) hsg d
      rwa [List.append_nil] at this
    rw [show a ++ (sg ++ d.text) ++ u ++ '×' :: (v ++ '1' :: '0' :: (t ++ b)) =
      (a ++ (sg ++ d.text)) ++ (u ++ '×' :: (v ++ '1' :: '0' :: (t ++ b))) by simp, h2]
    show (orValueError (PyText.ofStr (a ++ (sg ++ d.text)) : Option F)).bind _ = _
    rw [hρ, h3]
    show (orValueError (nrmlzeSuperscript (t ++ b))).bind _ = _
    rw [nrmlze_pad ht hb]
    rfl
  | nan a sg b t ha hb hsg ht =>
    refine hof (name_pad (blank_numSpace ha) (blank_numSpace hb) ?_ ?_ ?_) <;>
      rcases hsg with rfl | rfl | rfl <;> rcases ht with rfl | rfl | rfl <;> decide +kernel
  | inf a sg b t ha hb hsg ht =>
    refine hof (name_pad (blank_numSpace ha) (blank_numSpace hb) ?_ ?_ ?_) <;>
      rcases hsg with rfl | rfl | rfl <;> rcases ht with rfl | rfl | rfl <;> decide +kernel

/-- The part of the parser after the factored exponent. -/
def afterFactorG (factor : F) (s : Str) : PyRes (F × F) :=
  match Re.first pmRe s with
  | some (n, u) => do
    let x : F ← toFloat n
    let y : F ← toFloat u
    pure (PyText.mul x factor, PyText.mul y factor)
  | none => parseErrorInParentheses s

theorem strToNumberG_factor {body x : Str} {n : ℤ} (hb : '\n' ∉ body) (hx : ExpPart x n) (hne : x ≠ []) :
    (strToNumberWithUncert ('(' :: (body ++ ')' :: x)) : PyRes (F × F)) =
      (PyText.pow10 n : PyRes F).bind fun f => afterFactorG f body := by
  obtain ⟨e, he, hit⟩ := globalExp_first hb hx hne
  unfold strToNumberWithUncert
  rw [if_neg]
  · simp only [he, hit.nrmlze]
    show (do
      let (f, s) ← (do
        let f : F ← (PyText.pow10 n : PyRes F)
        pure (f, body) : PyRes (F × Str))
      _) = _
    cases (PyText.pow10 n : PyRes F) <;> rfl
  · rintro ⟨-, h⟩
    have : ('(' :: (body ++ ')' :: x)).getLast? = x.getLast? := by
      rw [show '(' :: (body ++ ')' :: x) = ('(' :: (body ++ [')'])) ++ x by simp]
      exact List.getLast?_append_of_ne_nil _ hne
    rw [this] at h
    rcases hx.cases' with ⟨rfl, -⟩ | ⟨tt, it, rfl, htt, hit⟩
    · exact hne rfl
    · exact hx.no_pm.2.2.2 (List.mem_of_mem_getLast? h)

theorem strToNumberG_plain {s : Str} (h : s.head? ≠ some '(') :
    (strToNumberWithUncert s : PyRes (F × F)) = afterFactorG PyText.one s := by
  unfold strToNumberWithUncert
  rw [if_neg (fun hh => h hh.1)]
  simp only [globalExpRe_none h]
  rfl

theorem strToNumberG_wrapped {s : Str} (h : s.head? ≠ some '(') :
    (strToNumberWithUncert ('(' :: (s ++ [')'])) : PyRes (F × F)) = afterFactorG PyText.one s := by
  unfold strToNumberWithUncert
  rw [if_pos ⟨rfl, by rw [← List.cons_append, List.getLast?_append]; rfl⟩]
  simp only [List.tail_cons, List.dropLast_concat]
  rw [globalExpRe_none h]
  rfl

/-- Two numbers, multiplied by a factor. -/
def readBoth (ρ : FNum → F) (x y : FNum) (e e' : Option ℤ) (factor : F) : PyRes (F × F) :=
  (readNumber ρ x e).bind fun a => (readNumber ρ y e').bind fun b => .ok (PyText.mul a factor, PyText.mul b factor)

theorem afterFactorG_pm (hρ : ∀ s, (PyText.ofStr s : Option F) = (pyFloat s).map ρ) {factor : F} {N U pm : Str} {x y : FNum}
    {e e' : Option ℤ} (hN : WrittenNum N x e) (hU : WrittenNum U y e') (hpm : IsPm pm) :
    afterFactorG factor (N ++ pm ++ U) = readBoth ρ x y e e' factor := by
  unfold afterFactorG
  rw [pmRe_first hpm (fun h => (hN.floatText.chars _ h).1 rfl) (fun h => (hU.floatText.chars _ h).1 rfl)
    (fun h => (hU.floatText.chars _ h).2.1 rfl) (fun h => (hU.floatText.chars _ h).2.2.1 rfl)]
  show (toFloat N : PyRes F).bind _ = _
  rw [toFloat_number hρ hN]
  unfold readBoth
  congr 1
  funext a
  show (toFloat U : PyRes F).bind _ = _
  rw [toFloat_number hρ hU]
  rfl

/-- A negative finite uncertainty is refused. -/
def checkedG (p : F × F) : PyRes (F × F) := if PyText.isNegFinite p.2 then .error .negativeStdDev else .ok p

theorem fromstrG_eq (s : Str) : (ufloatFromstr s : PyRes (F × F)) = (strToNumberWithUncert (strip s)).bind checkedG := by
  unfold ufloatFromstr
  rfl

theorem fromstrG_pm (hρ : ∀ s, (PyText.ofStr s : Option F) = (pyFloat s).map ρ) {a b N U pm : Str} {x y : FNum}
    {e e' : Option ℤ} (ha : IsSpaces a) (hb : IsSpaces b) (hN : WrittenNum N x e) (hU : WrittenNum U y e') (hpm : IsPm pm) :
    (ufloatFromstr (a ++ (N ++ pm ++ U) ++ b) : PyRes (F × F)) = (readBoth ρ x y e e' PyText.one).bind checkedG := by
  obtain ⟨a', N', rfl, ha', hN', hh, hne⟩ := hN.lstrip
  obtain ⟨U', b', rfl, hb', hU', hl, hne'⟩ := hU.rstrip
  have hs : strip (a ++ (a' ++ N' ++ pm ++ (U' ++ b')) ++ b) = N' ++ pm ++ U' := by
    rw [show a ++ (a' ++ N' ++ pm ++ (U' ++ b')) ++ b = (a ++ a') ++ (N' ++ pm ++ U') ++ (b' ++ b) by simp]
    refine stripBy_pad ?_ ?_ ?_ ?_
    · intro c hc
      rcases List.mem_append.1 hc with hc | hc
      · exact ha c hc
      · exact blank_space ha' c hc
    · intro c hc
      rcases List.mem_append.1 hc with hc | hc
      · exact blank_space hb' c hc
      · exact hb c hc
    · intro c hc
      rw [List.append_assoc, List.head?_append_of_ne_nil _ hne] at hc
      exact (hh c hc).1
    · intro c hc
      rw [List.getLast?_append_of_ne_nil _ hne'] at hc
      exact (hl c hc).1
  rw [fromstrG_eq, hs, strToNumberG_plain, afterFactorG_pm hρ hN' hU' hpm]
  intro h
  rw [List.append_assoc, List.head?_append_of_ne_nil _ hne] at h
  exact (hh _ h).2 rfl

/-- The factor of an exponent. -/
def factorOf (F : Type) [PyText F] (x : Str) (n : ℤ) : PyRes F := if x = [] then .ok PyText.one else PyText.pow10 n

theorem fromstrG_grouped (hρ : ∀ s, (PyText.ofStr s : Option F) = (pyFloat s).map ρ) {a b N U pm X : Str} {x y : FNum}
    {e e' : Option ℤ} {n : ℤ} (ha : IsSpaces a) (hb : IsSpaces b) (hN : WrittenNum N x e) (hU : WrittenNum U y e')
    (hpm : IsPm pm) (hX : ExpPart X n) :
    (ufloatFromstr (a ++ ('(' :: (N ++ pm ++ U ++ ')' :: X)) ++ b) : PyRes (F × F)) =
      (factorOf F X n).bind fun k => (readBoth ρ x y e e' k).bind checkedG := by
  have hbody : '\n' ∉ N ++ pm ++ U := by
    intro h
    rcases List.mem_append.1 h with h | h
    · rcases List.mem_append.1 h with h | h
      · exact (hN.floatText.chars _ h).1 rfl
      · rcases hpm with rfl | rfl <;> exact absurd h (by decide)
    · exact (hU.floatText.chars _ h).1 rfl
  rw [fromstrG_eq]
  unfold factorOf
  by_cases hxe : X = []
  · rw [if_pos hxe]
    subst hxe
    rw [strip_wrapped ha hb, strToNumberG_wrapped (FloatText.pm_head (y := y) hN.floatText hpm), afterFactorG_pm hρ hN hU hpm]
    rfl
  · rw [if_neg hxe, strip_factor ha hb hX hxe, strToNumberG_factor hbody hX hxe]
    cases (PyText.pow10 n : PyRes F) with
    | error e => rfl
    | ok k =>
      show (afterFactorG k (N ++ pm ++ U)).bind checkedG = (readBoth ρ x y e e' k).bind checkedG
      rw [afterFactorG_pm hρ hN hU hpm]

/-! ### Shorthand notation -/

/-- The uncertainty between parentheses. -/
def readShort (ρ : FNum → F) (places : ℕ) : ShortUncert → PyRes F
  | .implicit => (PyText.pow10 (places : ℤ) : PyRes F).bind fun d => PyText.divInt 1 d
  | .units ds _ _ => (PyText.pow10 (places : ℤ) : PyRes F).bind fun d => PyText.divInt (digitsVal ds) d
  | .explicit d _ => .ok (ρ (.fin d.value))
  | .nan _ => .ok (ρ .nan)
  | .inf _ => .ok (ρ (.inf false))

theorem uncertOfG_units {mu : Option NumMatch} {dec : Option Str} {t : Str} {n : ℕ} {p : ℕ}
    (hex : ∀ u, mu = some u → ¬ (u.dec.isSome ∨ u.text ∈ ["nan".toList, "NAN".toList, "inf".toList, "INF".toList]))
    (ht : (match mu with | none => ['1'] | some u => u.int.getD []) = t) (hn : pyInt t = some (n : ℤ))
    (hp : (match dec with | none => 0 | some d => d.length - 1) = p) :
    (uncertOf mu dec : PyRes F) = (PyText.pow10 (p : ℤ) : PyRes F).bind fun d => PyText.divInt (n : ℤ) d := by
  subst hp
  cases mu with
  | none =>
    subst ht
    unfold uncertOf
    simp only [hn, orValueError]
    rfl
  | some u =>
    have h1 := hex u rfl
    have ht' : u.int.getD [] = t := ht
    unfold uncertOf
    simp only [if_neg h1, ht', hn, orValueError]
    rfl

theorem uncertOfG_eq (hρ : ∀ s, (PyText.ofStr s : Option F) = (pyFloat s).map ρ) (d : Decimal) (u : ShortUncert) :
    (uncertOf u.found (d.fp.map ('.' :: ·)) : PyRes F) = readShort ρ d.places u := by
  cases u with
  | implicit =>
    rw [uncertOfG_units (t := ['1']) (n := 1) (by simp [ShortUncert.found]) rfl (by decide +kernel) (numDigits_eq d)]
    rfl
  | units ds h hne =>
    rw [uncertOfG_units (t := ds) (n := digitsVal ds) (p := d.places) ?_ rfl (pyInt_units h hne) (numDigits_eq d)]
    · rfl
    · rintro u hu
      obtain rfl := Option.some.inj hu
      obtain ⟨c, r, rfl⟩ := List.exists_cons_of_ne_nil hne
      have hc := h c (by simp)
      have h1 := digit_ne hc (show isDigit 'n' = false from rfl)
      have h2 := digit_ne hc (show isDigit 'N' = false from rfl)
      have h3 := digit_ne hc (show isDigit 'i' = false from rfl)
      have h4 := digit_ne hc (show isDigit 'I' = false from rfl)
      simp [h1, h2, h3, h4]
  | explicit d' h =>
    unfold uncertOf ShortUncert.found
    simp only [Option.isSome_map, h, true_or, if_true]
    have := pyFloat_text (sg := []) (.inl rfl) d'
    rw [List.nil_append] at this
    rw [hρ, this]
    simp [orValueError, readShort, signVal]
  | nan upper =>
    have hm : (if upper then "NAN".toList else "nan".toList) ∈
        ["nan".toList, "NAN".toList, "inf".toList, "INF".toList] := by cases upper <;> decide +kernel
    unfold uncertOf ShortUncert.found
    simp only [hm, or_true, if_true]
    rw [hρ, pyFloat_nan]
    rfl
  | inf upper =>
    have hm : (if upper then "INF".toList else "inf".toList) ∈
        ["nan".toList, "NAN".toList, "inf".toList, "INF".toList] := by cases upper <;> decide +kernel
    unfold uncertOf ShortUncert.found
    simp only [hm, or_true, if_true]
    rw [hρ, pyFloat_inf]
    rfl

theorem expFactorG_eq {X : Str} {e : Option Str} {n : ℤ} (h : e = none ∧ n = 0 ∧ X = [] ∨ ∃ t, e = some t ∧ IntText t n ∧ X ≠ []) :
    (expFactor e : PyRes F) = factorOf F X n := by
  unfold factorOf
  rcases h with ⟨rfl, rfl, rfl⟩ | ⟨t, rfl, ht, hX⟩
  · rfl
  · rw [if_neg hX]
    cases t with
    | nil => exact absurd rfl ht.ne_nil
    | cons c t =>
      unfold expFactor
      simp only [ht.nrmlze, orValueError]
      rfl

theorem fromstrG_paren (hρ : ∀ s, (PyText.ofStr s : Option F) = (pyFloat s).map ρ) {a b sg : Str} (ha : IsSpaces a)
    (hb : IsSpaces b) (hsg : IsSign sg) (d : Decimal) (u : ShortUncert) {x : Str} {n : ℤ} (hx : ExpPart x n) :
    (ufloatFromstr (a ++ (sg ++ (d.text ++ (u.text ++ x))) ++ b) : PyRes (F × F)) =
      (factorOf F x n).bind fun k => (readShort ρ d.places u).bind fun w =>
        checkedG (PyText.mul (ρ (.fin (signVal sg * d.value))) k, PyText.mul w k) := by
  obtain ⟨c, h1, -, h3⟩ := signed_head hsg d (u.text ++ x)
  have hno : ∀ c, isDelim c = true → c ∉ sg ++ d.text := fun c hc hm => by
    rw [(signed_decimal_char hsg d c hm).2] at hc
    exact absurd hc (by decide)
  have hpm : ∀ c, isDelim c = true → c ∉ u.text → c ∉ x → c ∉ sg ++ (d.text ++ (u.text ++ x)) := by
    intro c hc hcu hcx hm
    rw [← List.append_assoc] at hm
    rcases List.mem_append.1 hm with hm | hm
    · exact hno c hc hm
    · rcases List.mem_append.1 hm with hm | hm
      · exact hcu hm
      · exact hcx hm
  rw [fromstrG_eq, paren_strip ha hb hsg d u hx, strToNumberG_plain (by rw [h1]; rintro h; rw [Option.some.inj h] at h3; exact absurd h3 (by decide))]
  unfold afterFactorG
  rw [pmRe_none (hpm _ (by decide) u.no_pm.1 hx.no_pm.1) (hpm _ (by decide) u.no_pm.2 hx.no_pm.2.1)]
  simp only []
  obtain ⟨e, he, hf⟩ := parenRe_exp hsg d u hx
  unfold parseErrorInParentheses
  rw [hf]
  have hv : (PyText.ofStr (sg ++ d.text) : Option F) = some (ρ (.fin (signVal sg * d.value))) := by
    rw [hρ, pyFloat_text hsg d]
    rfl
  show ((expFactor e : PyRes F).bind (fun factor => (orValueError (PyText.ofStr (sg.head?.toList ++ d.text))).bind fun v =>
    (uncertOf u.found (d.fp.map ('.' :: ·)) : PyRes F).bind fun uncert =>
      .ok (PyText.mul v factor, PyText.mul uncert factor))).bind checkedG = _
  rw [expFactorG_eq he, hsg.head_toList, hv, uncertOfG_eq hρ d u]
  cases factorOf F x n with
  | error e => rfl
  | ok k =>
    show ((readShort ρ d.places u).bind _).bind _ = (readShort ρ d.places u).bind _
    cases readShort ρ d.places u <;> rfl

end

end Unc
