import Verif.Lemmas.Paren2

/-! # Evaluation of the parser on numbers with a plus-minus symbol -/

set_option autoImplicit false

namespace Unc

theorem blank_numSpace {s : Str} (h : IsBlanks s) : ∀ c ∈ s, isNumSpace c = true := by
  intro c hc
  rcases h c hc with rfl | rfl <;> decide

theorem blank_space {s : Str} (h : IsBlanks s) : ∀ c ∈ s, isSpace c = true :=
  fun c hc => numSpace_space (blank_numSpace h c hc)

theorem blank_no_newline {s : Str} (h : IsBlanks s) : '\n' ∉ s := by
  intro hc
  rcases h _ hc with h | h <;> exact absurd h (by decide)

theorem PlainInt.intText {t : Str} {n : ℤ} (h : PlainInt t n) : IntText t n := by
  obtain ⟨sg, ds, h1, h2, h3, h4, h5⟩ := h
  exact ⟨sg, ds, h1, h2, h3, .inl h4, h5⟩

theorem PlainInt.sign {t : Str} {n : ℤ} (h : PlainInt t n) :
    ∃ neg ds, takeSign t = (neg, ds) ∧ AllD ds ∧ ds ≠ [] ∧ n = if neg then -(digitsVal ds : ℤ) else (digitsVal ds : ℤ) := by
  obtain ⟨sg, ds, hsg, hds, hne, rfl, rfl⟩ := h
  refine ⟨_, ds, takeSign_of hsg ?_, hds, hne, by simp⟩
  intro c hc
  have := hds c (List.mem_of_mem_head? hc)
  exact ⟨digit_ne this rfl, digit_ne this rfl⟩

theorem PlainInt.chars {t : Str} {n : ℤ} (h : PlainInt t n) : ∀ c ∈ t, isNumChar c = true := by
  obtain ⟨sg, ds, hsg, hds, hne, rfl, rfl⟩ := h
  intro c hc
  rcases signed_chars hsg hds c hc with rfl | rfl | h
  · rfl
  · rfl
  · exact digit_numChar h

/-- `float()` of a decimal number with spaces. -/
theorem pyFloat_text_pad {a b sg : Str} (ha : ∀ c ∈ a, isNumSpace c = true) (hb : ∀ c ∈ b, isNumSpace c = true)
    (hsg : IsSign sg) (d : Decimal) :
    pyFloat (a ++ (sg ++ d.text) ++ b) = some (.fin (signVal sg * d.value)) := by
  have := pyFloat_decimal (a := a) (b := b) (sg := sg) (ip := d.ip) (d := d.fp) (ex := []) (e := 0) ha hb
    hsg d.ipDigits d.isD d.some_digit rfl (by simp) (by simp)
  rw [decimal_value] at this
  simp only [List.append_nil, ← d.text_eq, zpow_zero, mul_one] at this
  rw [this, signVal_mul]

theorem pyFloat_exp_pad {a b sg : Str} (ha : ∀ c ∈ a, isNumSpace c = true) (hb : ∀ c ∈ b, isNumSpace c = true)
    (hsg : IsSign sg) (d : Decimal) {c : Char} (hc : c = 'e' ∨ c = 'E') {t : Str} {n : ℤ} (ht : PlainInt t n) :
    pyFloat (a ++ (sg ++ (d.text ++ c :: t)) ++ b) = some (.fin (signVal sg * d.value * 10 ^ n)) := by
  obtain ⟨neg, ds, h1, h2, h3, h4⟩ := ht.sign
  have hp := parseExp_of hc h1 h2 h3
  rw [← h4] at hp
  have := pyFloat_decimal (a := a) (b := b) (sg := sg) (ip := d.ip) (d := d.fp) (ex := c :: t) (e := n) ha hb
    hsg d.ipDigits d.isD d.some_digit hp (by
      intro c' h'
      obtain rfl : c = c' := by simpa using h'
      exact hc) (by
      intro c' h'
      rcases List.mem_cons.1 h' with rfl | h'
      · rcases hc with rfl | rfl <;> rfl
      · exact ht.chars c' h')
  rw [decimal_value] at this
  rw [← d.text_eq] at this
  rw [this, signVal_mul, mul_assoc]

/-- `float()` fails on strings with a multiplication sign. -/
theorem pyFloat_times {s : Str} (h : '×' ∈ s) : pyFloat s = none := by
  cases hs : pyFloat s with
  | none => rfl
  | some x => exact absurd (pyFloat_no_delim hs _ h) (by decide)

theorem prettyRe_first {m u v e : Str} (hm : '\n' ∉ m) (hx : '×' ∉ m) (hlast : ∀ c, m.getLast? = some c → isSpace c = false)
    (hu : ∀ c ∈ u, isSpace c = true) (hv : ∀ c ∈ v, isSpace c = true) (he : '\n' ∉ e) :
    Re.first prettyRe (m ++ (u ++ '×' :: (v ++ '1' :: '0' :: e))) = some (m, e) := by
  refine Re.Hd.first (m := ((m, e), [])) ?_
  unfold prettyRe
  refine Re.Hd.lazyStar_seq (fun c hc => dot_of_ne (by rintro rfl; exact hm hc)) ?_ ?_
  · intro c d hcd hd
    refine Re.seq_nil ?_
    intro sp t hst
    obtain ⟨h1, h2⟩ := Re.mem_star.1 hst
    refine Re.seq_nil ?_
    intro y t' hlit
    exfalso
    have h3 := Re.mem_lit.1 hlit
    subst h3
    -- the last character of `d` is a non-space of `m`
    obtain ⟨d', l, rfl⟩ : ∃ d' l, d = d' ++ [l] := ⟨d.dropLast, d.getLast hd, (List.dropLast_append_getLast hd).symm⟩
    have hl : isSpace l = false := hlast l (by rw [hcd, ← List.append_assoc]; simp)
    have hlx : l ≠ '×' := by rintro rfl; exact hx (by rw [hcd]; simp)
    have hdx : '×' ∉ d' := fun h => hx (by rw [hcd]; simp [h])
    rw [List.append_assoc] at h1
    have : ∀ (d' sp : Str), d' ++ ([l] ++ (u ++ '×' :: (v ++ '1' :: '0' :: e))) = sp ++ ('×' :: t') → '×' ∉ d' →
        (∀ c ∈ sp, isSpace c = true) → False := by
      intro d'
      induction d' with
      | nil =>
        intro sp h _ hs
        cases sp with
        | nil => exact hlx (List.cons.inj h).1
        | cons z sp =>
          have := hs z (by simp)
          rw [← (List.cons.inj h).1, hl] at this
          exact absurd this (by decide)
      | cons z d' ih =>
        intro sp h hz hs
        cases sp with
        | nil => exact hz (by rw [(List.cons.inj h).1]; simp)
        | cons w sp =>
          exact ih sp (List.cons.inj h).2 (fun hh => hz (by simp [hh])) (fun c hc => hs c (by simp [hc]))
    exact this d' sp h1 hdx h2
  · refine Re.Hd.seq' (a := u) (t := '×' :: (v ++ '1' :: '0' :: e)) (Re.Hd.star hu ?_) ?_
    · intro c hc
      obtain rfl : '×' = c := by simpa using hc
      rfl
    · refine Re.Hd.seq' (a := ()) (Re.Hd.lit ['×'] _) ?_
      refine Re.Hd.seq' (a := v) (t := '1' :: '0' :: e) (Re.Hd.star hv ?_) ?_
      · intro c hc
        obtain rfl : '1' = c := by simpa using hc
        rfl
      · refine Re.Hd.seq' (a := ()) (Re.Hd.lit ['1', '0'] _) ?_
        exact Re.Hd.seq' (Re.Hd.star_all (fun c hc => dot_of_ne (by rintro rfl; exact he hc))) (Re.Hd.ret _ _)

theorem pyInt_pad {t b : Str} {n : ℤ} (h : PlainInt t n) (hb : ∀ c ∈ b, isNumSpace c = true) :
    pyInt (t ++ b) = some n := by
  obtain ⟨neg, ds, h1, h2, h3, h4⟩ := h.sign
  have := pyInt_digits (a := []) (b := b) (by simp) hb h1 h2 h3 h.chars
  rw [h4]
  simpa using this

theorem fromSup_id {c : Char} (h : c = '+' ∨ c = '-' ∨ isDigit c = true) : fromSup c = c ∧ fromSup (toSup c) = c := by
  rcases h with rfl | rfl | h
  · exact ⟨rfl, rfl⟩
  · exact ⟨rfl, rfl⟩
  · rcases isDigit_cases h with rfl | rfl | rfl | rfl | rfl | rfl | rfl | rfl | rfl | rfl <;> exact ⟨rfl, rfl⟩

theorem nrmlze_pad {t b : Str} {n : ℤ} (h : IntText t n) (hb : IsBlanks b) : nrmlzeSuperscript (t ++ b) = some n := by
  obtain ⟨sg, ds, hsg, hds, hne, ht, hn⟩ := h
  have key := signed_chars hsg hds
  have hmap : t.map fromSup = sg ++ ds := by
    rcases ht with rfl | rfl
    · conv_rhs => rw [← List.map_id (sg ++ ds)]
      exact List.map_congr_left fun c hc => (fromSup_id (key c hc)).1
    · rw [List.map_map]
      conv_rhs => rw [← List.map_id (sg ++ ds)]
      exact List.map_congr_left fun c hc => (fromSup_id (key c hc)).2
  have hb' : b.map fromSup = b := by
    conv_rhs => rw [← List.map_id b]
    refine List.map_congr_left fun c hc => ?_
    rcases hb c hc with rfl | rfl <;> rfl
  unfold nrmlzeSuperscript
  rw [List.map_append, hmap, hb']
  exact pyInt_pad ⟨sg, ds, hsg, hds, hne, rfl, hn⟩ (blank_numSpace hb)

theorem name_pad {a b s : Str} {x : FNum} (ha : ∀ c ∈ a, isNumSpace c = true) (hb : ∀ c ∈ b, isNumSpace c = true)
    (h1 : ∀ c, s.head? = some c → isNumSpace c = false) (h2 : ∀ c, s.getLast? = some c → isNumSpace c = false)
    (h : pyFloat s = some x) : pyFloat (a ++ s ++ b) = some x := by
  rw [← h]
  unfold pyFloat
  rw [stripBy_pad ha hb h1 h2]
  have := stripBy_pad (a := []) (b := []) (s := s) (p := isNumSpace) (by simp) (by simp) h1 h2
  rw [List.nil_append, List.append_nil] at this
  rw [this]

/-- `to_float` of a number. -/
theorem toFloat_text {t : Str} {x : FNum} (h : FloatText t x) : (toFloat t : PyRes FNum) = .ok x := by
  have hof : ∀ {t : Str} {x : FNum}, pyFloat t = some x → (toFloat t : PyRes FNum) = .ok x := by
    intro t x h
    unfold toFloat
    have : (PyText.ofStr t : Option FNum) = some x := h
    rw [this]
  cases h with
  | plain a sg b d ha hb hsg => exact hof (pyFloat_text_pad (blank_numSpace ha) (blank_numSpace hb) hsg d)
  | exp a sg b d ha hb hsg c hc t n ht =>
    exact hof (pyFloat_exp_pad (blank_numSpace ha) (blank_numSpace hb) hsg d hc ht)
  | times a sg b d ha hb hsg u v t hu hv n ht hn =>
    unfold toFloat
    have h1 : (PyText.ofStr (a ++ (sg ++ d.text) ++ u ++ '×' :: (v ++ '1' :: '0' :: (t ++ b))) : Option FNum) = none :=
      pyFloat_times (by simp)
    rw [h1]
    have hchars := signed_decimal_char hsg d
    have h2 : Re.first prettyRe ((a ++ (sg ++ d.text)) ++ (u ++ '×' :: (v ++ '1' :: '0' :: (t ++ b)))) =
        some (a ++ (sg ++ d.text), t ++ b) := by
      refine prettyRe_first ?_ ?_ ?_ (blank_space hu) (blank_space hv) ?_
      · intro hm
        rcases List.mem_append.1 hm with hm | hm
        · exact blank_no_newline ha hm
        · exact absurd (hchars _ hm).1 (by decide)
      · intro hm
        rcases List.mem_append.1 hm with hm | hm
        · rcases ha _ hm with h | h <;> exact absurd h (by decide)
        · exact absurd (hchars _ hm).2 (by decide)
      · intro c hc
        rw [List.getLast?_append_of_ne_nil _ (by simp [d.ne_nil])] at hc
        exact (hchars c (List.mem_of_mem_getLast? hc)).1
      · intro hm
        rcases List.mem_append.1 hm with hm | hm
        · exact (expChar_cases (ht.chars _ hm)).2.1 rfl
        · exact blank_no_newline hb hm
    have h3 : (PyText.ofStr (a ++ (sg ++ d.text)) : Option FNum) = some (.fin (signVal sg * d.value)) := by
      have := pyFloat_text_pad (b := []) (blank_numSpace ha) (by simp) hsg d
      rwa [List.append_nil] at this
    rw [show a ++ (sg ++ d.text) ++ u ++ '×' :: (v ++ '1' :: '0' :: (t ++ b)) =
      (a ++ (sg ++ d.text)) ++ (u ++ '×' :: (v ++ '1' :: '0' :: (t ++ b))) by simp, h2]
    show (orValueError (PyText.ofStr (a ++ (sg ++ d.text)) : Option FNum)).bind _ = _
    rw [h3]
    show (orValueError (nrmlzeSuperscript (t ++ b))).bind _ = _
    rw [nrmlze_pad ht hb]
    show (PyText.pow10 n : PyRes FNum).bind _ = _
    rw [pow10_ok hn]
    rfl
  | nan a sg b t ha hb hsg ht =>
    refine hof (name_pad (blank_numSpace ha) (blank_numSpace hb) ?_ ?_ ?_) <;>
      rcases hsg with rfl | rfl | rfl <;> rcases ht with rfl | rfl | rfl <;> decide +kernel
  | inf a sg b t ha hb hsg ht =>
    refine hof (name_pad (blank_numSpace ha) (blank_numSpace hb) ?_ ?_ ?_) <;>
      rcases hsg with rfl | rfl | rfl <;> rcases ht with rfl | rfl | rfl <;> decide +kernel

/-- Characters of numbers. -/
theorem FloatText.chars {t : Str} {x : FNum} (h : FloatText t x) :
    ∀ c ∈ t, c ≠ '\n' ∧ c ≠ '/' ∧ c ≠ '±' ∧ c ≠ '(' ∧ c ≠ ')' := by
  have hbl : ∀ {s : Str}, IsBlanks s → ∀ c ∈ s, c ≠ '\n' ∧ c ≠ '/' ∧ c ≠ '±' ∧ c ≠ '(' ∧ c ≠ ')' := by
    intro s hs c hc
    rcases hs c hc with rfl | rfl <;> decide
  have hnd : ∀ {c}, isSpace c = false → isDelim c = false → c ≠ '\n' ∧ c ≠ '/' ∧ c ≠ '±' ∧ c ≠ '(' ∧ c ≠ ')' := by
    intro c h1 h2
    refine ⟨?_, ?_, ?_, ?_, ?_⟩ <;> rintro rfl
    · exact absurd h1 (by decide)
    all_goals exact absurd h2 (by decide)
  have hdec : ∀ {sg : Str}, IsSign sg → ∀ (d : Decimal), ∀ c ∈ sg ++ d.text,
      c ≠ '\n' ∧ c ≠ '/' ∧ c ≠ '±' ∧ c ≠ '(' ∧ c ≠ ')' := by
    intro sg hsg d c hc
    exact hnd (signed_decimal_char hsg d c hc).1 (signed_decimal_char hsg d c hc).2
  have hint : ∀ {t : Str} {n : ℤ}, IntText t n → ∀ c ∈ t, c ≠ '\n' ∧ c ≠ '/' ∧ c ≠ '±' ∧ c ≠ '(' ∧ c ≠ ')' := by
    intro t n ht c hc
    obtain ⟨h1, -, h2, -⟩ := expChar_cases (ht.chars c hc)
    exact hnd h1 h2
  intro c hc
  cases h with
  | plain a sg b d ha hb hsg =>
    rcases List.mem_append.1 hc with hc | hc
    · rcases List.mem_append.1 hc with hc | hc
      · exact hbl ha c hc
      · exact hdec hsg d c hc
    · exact hbl hb c hc
  | exp a sg b d ha hb hsg e he t n ht =>
    rcases List.mem_append.1 hc with hc | hc
    · rcases List.mem_append.1 hc with hc | hc
      · exact hbl ha c hc
      · rw [← List.append_assoc] at hc
        rcases List.mem_append.1 hc with hc | hc
        · exact hdec hsg d c hc
        · rcases List.mem_cons.1 hc with rfl | hc
          · rcases he with rfl | rfl <;> decide
          · exact hint ht.intText c hc
    · exact hbl hb c hc
  | times a sg b d ha hb hsg u v t hu hv n ht hn =>
    rcases List.mem_append.1 hc with hc | hc
    · rcases List.mem_append.1 hc with hc | hc
      · rcases List.mem_append.1 hc with hc | hc
        · exact hbl ha c hc
        · exact hdec hsg d c hc
      · exact hbl hu c hc
    · rcases List.mem_cons.1 hc with rfl | hc
      · decide
      · rcases List.mem_append.1 hc with hc | hc
        · exact hbl hv c hc
        · rcases List.mem_cons.1 hc with rfl | hc
          · decide
          · rcases List.mem_cons.1 hc with rfl | hc
            · decide
            · rcases List.mem_append.1 hc with hc | hc
              · exact hint ht c hc
              · exact hbl hb c hc
  | nan a sg b t ha hb hsg ht =>
    rcases List.mem_append.1 hc with hc | hc
    · rcases List.mem_append.1 hc with hc | hc
      · exact hbl ha c hc
      · have : ∀ c ∈ sg ++ t, c ≠ '\n' ∧ c ≠ '/' ∧ c ≠ '±' ∧ c ≠ '(' ∧ c ≠ ')' := by
          rcases hsg with rfl | rfl | rfl <;> rcases ht with rfl | rfl | rfl <;> decide +kernel
        exact this c hc
    · exact hbl hb c hc
  | inf a sg b t ha hb hsg ht =>
    rcases List.mem_append.1 hc with hc | hc
    · rcases List.mem_append.1 hc with hc | hc
      · exact hbl ha c hc
      · have : ∀ c ∈ sg ++ t, c ≠ '\n' ∧ c ≠ '/' ∧ c ≠ '±' ∧ c ≠ '(' ∧ c ≠ ')' := by
          rcases hsg with rfl | rfl | rfl <;> rcases ht with rfl | rfl | rfl <;> decide +kernel
        exact this c hc
    · exact hbl hb c hc

/-! ### Factored exponents -/

/-- The regular expression of factored exponents. -/
theorem globalExp_first {body x : Str} {n : ℤ} (hb : '\n' ∉ body) (hx : ExpPart x n) (hne : x ≠ []) :
    ∃ e, Re.first globalExpRe ('(' :: (body ++ ')' :: x)) = some (body, e) ∧ IntText e n := by
  rcases hx.cases' with ⟨rfl, -⟩ | ⟨tt, it, rfl, htt, hit⟩
  · exact absurd rfl hne
  refine ⟨it, ?_, hit⟩
  refine Re.Hd.first (m := ((body, it), [])) ?_
  unfold globalExpRe
  refine Re.Hd.seq' (a := ()) (Re.Hd.lit ['('] _) ?_
  refine Re.Hd.star_seq (fun c hc => dot_of_ne (by rintro rfl; exact hb hc)) ?_ ?_
  · intro c d heq hc _
    refine Re.seq_nil ?_
    intro y t hlit
    exfalso
    have := Re.mem_lit.1 hlit
    subst this
    cases c with
    | nil => exact hc rfl
    | cons z c =>
      have h2 := (List.cons.inj heq).2
      exact hx.no_pm.2.2.2 (by rw [h2]; simp)
  · refine Re.Hd.seq' (a := ()) (Re.Hd.lit [')'] _) ?_
    refine Re.Hd.seq' (a := ()) (timesRe_hd htt) ?_
    refine Re.Hd.seq' (Re.Hd.star_all (fun c hc => dot_of_ne (expChar_cases (hit.chars c hc)).2.1)) ?_
    exact Re.Hd.seq' Re.Hd.eos (Re.Hd.ret _ _)

/-- The part of the parser after the factored exponent. -/
def afterFactor (factor : FNum) (s : Str) : PyRes (FNum × FNum) :=
  match Re.first pmRe s with
  | some (n, u) => do
    let x : FNum ← toFloat n
    let y : FNum ← toFloat u
    pure (PyText.mul x factor, PyText.mul y factor)
  | none => parseErrorInParentheses s

theorem strToNumber_factor {body x : Str} {n : ℤ} (hb : '\n' ∉ body) (hx : ExpPart x n) (hne : x ≠ []) (hn : n ≤ 308) :
    (strToNumberWithUncert ('(' :: (body ++ ')' :: x)) : PyRes (FNum × FNum)) = afterFactor (.fin (10 ^ n)) body := by
  obtain ⟨e, he, hit⟩ := globalExp_first hb hx hne
  unfold strToNumberWithUncert
  rw [if_neg]
  · simp only [he, hit.nrmlze]
    show (do
      let (f, s) ← (do
        let f : FNum ← (PyText.pow10 n : PyRes FNum)
        pure (f, body) : PyRes (FNum × Str))
      _) = _
    rw [pow10_ok hn]
    rfl
  · rintro ⟨-, h⟩
    have : ('(' :: (body ++ ')' :: x)).getLast? = x.getLast? := by
      rw [show '(' :: (body ++ ')' :: x) = ('(' :: (body ++ [')'])) ++ x by simp]
      exact List.getLast?_append_of_ne_nil _ hne
    rw [this] at h
    rcases hx.cases' with ⟨rfl, -⟩ | ⟨tt, it, rfl, htt, hit⟩
    · exact hne rfl
    · exact hx.no_pm.2.2.2 (List.mem_of_mem_getLast? h)

theorem strToNumber_factor_overflow {body x : Str} {n : ℤ} (hb : '\n' ∉ body) (hx : ExpPart x n) (hne : x ≠ []) (hn : 308 < n) :
    (strToNumberWithUncert ('(' :: (body ++ ')' :: x)) : PyRes (FNum × FNum)) = .error .overflowError := by
  obtain ⟨e, he, hit⟩ := globalExp_first hb hx hne
  unfold strToNumberWithUncert
  rw [if_neg]
  · simp only [he, hit.nrmlze]
    show (do
      let (f, s) ← (do
        let f : FNum ← (PyText.pow10 n : PyRes FNum)
        pure (f, body) : PyRes (FNum × Str))
      _) = _
    rw [pow10_error hn]
    rfl
  · rintro ⟨-, h⟩
    have : ('(' :: (body ++ ')' :: x)).getLast? = x.getLast? := by
      rw [show '(' :: (body ++ ')' :: x) = ('(' :: (body ++ [')'])) ++ x by simp]
      exact List.getLast?_append_of_ne_nil _ hne
    rw [this] at h
    rcases hx.cases' with ⟨rfl, -⟩ | ⟨tt, it, rfl, htt, hit⟩
    · exact hne rfl
    · exact hx.no_pm.2.2.2 (List.mem_of_mem_getLast? h)

/-- Without parentheses, no exponent is factored. -/
theorem strToNumber_plain {s : Str} (h : s.head? ≠ some '(') :
    (strToNumberWithUncert s : PyRes (FNum × FNum)) = afterFactor (.fin 1) s := by
  unfold strToNumberWithUncert
  rw [if_neg (fun hh => h hh.1)]
  simp only [globalExpRe_none h]
  rfl

/-- Parentheses around everything. -/
theorem strToNumber_wrapped {s : Str} (h : s.head? ≠ some '(') :
    (strToNumberWithUncert ('(' :: (s ++ [')'])) : PyRes (FNum × FNum)) = afterFactor (.fin 1) s := by
  unfold strToNumberWithUncert
  rw [if_pos ⟨rfl, by rw [← List.cons_append, List.getLast?_append]; rfl⟩]
  simp only [List.tail_cons, List.dropLast_concat]
  rw [globalExpRe_none h]
  rfl

theorem afterFactor_pm {factor : ℚ} {N U pm : Str} {x y : FNum} (hN : FloatText N x) (hU : FloatText U y) (hpm : IsPm pm) :
    afterFactor (.fin factor) (N ++ pm ++ U) = .ok (x.scale factor, y.scale factor) := by
  unfold afterFactor
  rw [pmRe_first hpm (fun h => (hN.chars _ h).1 rfl) (fun h => (hU.chars _ h).1 rfl) (fun h => (hU.chars _ h).2.1 rfl)
    (fun h => (hU.chars _ h).2.2.1 rfl)]
  show (toFloat N : PyRes FNum).bind _ = _
  rw [toFloat_text hN]
  show (toFloat U : PyRes FNum).bind _ = _
  rw [toFloat_text hU]
  rfl

/-! ### Surrounding spaces -/

theorem blanks_nil : IsBlanks [] := by simp [IsBlanks]

theorem name_head {sg t : Str} (hsg : IsSign sg) (ht : t ∈ ["nan".toList, "NAN".toList, "NaN".toList, "inf".toList, "INF".toList, "Inf".toList]) :
    (∀ c, (sg ++ t).head? = some c → isSpace c = false ∧ c ≠ '(') ∧
      (∀ c, (sg ++ t).getLast? = some c → isSpace c = false ∧ c ≠ ')') ∧ sg ++ t ≠ [] := by
  simp only [List.mem_cons, List.not_mem_nil, or_false] at ht
  rcases hsg with rfl | rfl | rfl <;> rcases ht with rfl | rfl | rfl | rfl | rfl | rfl <;> decide +kernel

theorem decimal_head {sg : Str} (hsg : IsSign sg) (d : Decimal) (r : Str) :
    ∀ c, (sg ++ (d.text ++ r)).head? = some c → isSpace c = false ∧ c ≠ '(' := by
  intro c hc
  obtain ⟨c', h1, h2, h3⟩ := signed_head hsg d r
  rw [h1] at hc
  obtain rfl := Option.some.inj hc
  exact ⟨h2, by rintro rfl; exact absurd h3 (by decide)⟩

theorem FloatText.lstrip {t : Str} {x : FNum} (h : FloatText t x) :
    ∃ a t', t = a ++ t' ∧ IsBlanks a ∧ FloatText t' x ∧ (∀ c, t'.head? = some c → isSpace c = false ∧ c ≠ '(') ∧ t' ≠ [] := by
  cases h with
  | plain a sg b d ha hb hsg =>
    refine ⟨a, [] ++ (sg ++ d.text) ++ b, by simp, ha, .plain [] sg b d blanks_nil hb hsg, ?_, by simp [d.ne_nil]⟩
    have := decimal_head hsg d b
    simpa using this
  | exp a sg b d ha hb hsg e he t n ht =>
    refine ⟨a, [] ++ (sg ++ (d.text ++ e :: t)) ++ b, by simp, ha, .exp [] sg b d blanks_nil hb hsg e he t n ht, ?_, by simp⟩
    have := decimal_head hsg d (e :: t ++ b)
    simpa using this
  | times a sg b d ha hb hsg u v t hu hv n ht hn =>
    refine ⟨a, [] ++ (sg ++ d.text) ++ u ++ '×' :: (v ++ '1' :: '0' :: (t ++ b)), by simp, ha,
      .times [] sg b d blanks_nil hb hsg u v t hu hv n ht hn, ?_, by simp⟩
    have := decimal_head hsg d (u ++ '×' :: (v ++ '1' :: '0' :: (t ++ b)))
    simpa using this
  | nan a sg b t ha hb hsg ht =>
    refine ⟨a, [] ++ (sg ++ t) ++ b, by simp, ha, .nan [] sg b t blanks_nil hb hsg ht, ?_, ?_⟩
    · have := name_head hsg (t := t) (by rcases ht with rfl | rfl | rfl <;> decide +kernel)
      intro c hc
      rw [List.nil_append, List.head?_append_of_ne_nil _ this.2.2] at hc
      exact this.1 c hc
    · rcases ht with rfl | rfl | rfl <;> simp
  | inf a sg b t ha hb hsg ht =>
    refine ⟨a, [] ++ (sg ++ t) ++ b, by simp, ha, .inf [] sg b t blanks_nil hb hsg ht, ?_, ?_⟩
    · have := name_head hsg (t := t) (by rcases ht with rfl | rfl | rfl <;> decide +kernel)
      intro c hc
      rw [List.nil_append, List.head?_append_of_ne_nil _ this.2.2] at hc
      exact this.1 c hc
    · rcases ht with rfl | rfl | rfl <;> simp

theorem FloatText.rstrip {t : Str} {x : FNum} (h : FloatText t x) :
    ∃ t' b, t = t' ++ b ∧ IsBlanks b ∧ FloatText t' x ∧ (∀ c, t'.getLast? = some c → isSpace c = false ∧ c ≠ ')') ∧ t' ≠ [] := by
  have hint : ∀ {t : Str} {n : ℤ}, IntText t n → ∀ c ∈ t, isSpace c = false ∧ c ≠ ')' := by
    intro t n ht c hc
    obtain ⟨h1, -, h2, -⟩ := expChar_cases (ht.chars c hc)
    exact ⟨h1, by rintro rfl; exact absurd h2 (by decide)⟩
  cases h with
  | plain a sg b d ha hb hsg =>
    refine ⟨a ++ (sg ++ d.text) ++ [], b, by simp, hb, .plain a sg [] d ha blanks_nil hsg, ?_, by simp [d.ne_nil]⟩
    intro c hc
    rw [List.append_nil, List.getLast?_append_of_ne_nil _ (by simp [d.ne_nil])] at hc
    have := signed_decimal_char hsg d c (List.mem_of_mem_getLast? hc)
    exact ⟨this.1, by rintro rfl; exact absurd this.2 (by decide)⟩
  | exp a sg b d ha hb hsg e he t n ht =>
    refine ⟨a ++ (sg ++ (d.text ++ e :: t)) ++ [], b, by simp, hb, .exp a sg [] d ha blanks_nil hsg e he t n ht, ?_, by simp⟩
    intro c hc
    rw [show a ++ (sg ++ (d.text ++ e :: t)) ++ [] = (a ++ sg ++ d.text ++ [e]) ++ t by simp,
      List.getLast?_append_of_ne_nil _ ht.intText.ne_nil] at hc
    exact hint ht.intText c (List.mem_of_mem_getLast? hc)
  | times a sg b d ha hb hsg u v t hu hv n ht hn =>
    refine ⟨a ++ (sg ++ d.text) ++ u ++ '×' :: (v ++ '1' :: '0' :: (t ++ [])), b, by simp, hb,
      .times a sg [] d ha blanks_nil hsg u v t hu hv n ht hn, ?_, by simp⟩
    intro c hc
    rw [show a ++ (sg ++ d.text) ++ u ++ '×' :: (v ++ '1' :: '0' :: (t ++ [])) =
      (a ++ (sg ++ d.text) ++ u ++ '×' :: (v ++ ['1', '0'])) ++ t by simp,
      List.getLast?_append_of_ne_nil _ ht.ne_nil] at hc
    exact hint ht c (List.mem_of_mem_getLast? hc)
  | nan a sg b t ha hb hsg ht =>
    refine ⟨a ++ (sg ++ t) ++ [], b, by simp, hb, .nan a sg [] t ha blanks_nil hsg ht, ?_, ?_⟩
    · have := name_head hsg (t := t) (by rcases ht with rfl | rfl | rfl <;> decide +kernel)
      intro c hc
      rw [List.append_nil, List.getLast?_append_of_ne_nil _ this.2.2] at hc
      exact this.2.1 c hc
    · rcases ht with rfl | rfl | rfl <;> simp
  | inf a sg b t ha hb hsg ht =>
    refine ⟨a ++ (sg ++ t) ++ [], b, by simp, hb, .inf a sg [] t ha blanks_nil hsg ht, ?_, ?_⟩
    · have := name_head hsg (t := t) (by rcases ht with rfl | rfl | rfl <;> decide +kernel)
      intro c hc
      rw [List.append_nil, List.getLast?_append_of_ne_nil _ this.2.2] at hc
      exact this.2.1 c hc
    · rcases ht with rfl | rfl | rfl <;> simp

/-- The result of the parser: a negative finite uncertainty is refused. -/
def checked (p : FNum × FNum) : PyRes (FNum × FNum) :=
  if PyText.isNegFinite p.2 then .error .negativeStdDev else .ok p

theorem fromstr_eq (s : Str) :
    (ufloatFromstr s : PyRes (FNum × FNum)) = (strToNumberWithUncert (strip s)).bind checked := by
  unfold ufloatFromstr
  rfl

/-- Numbers with a plus-minus symbol. -/
theorem fromstr_pm {a b N U pm : Str} {x y : FNum} (ha : IsSpaces a) (hb : IsSpaces b) (hN : FloatText N x)
    (hU : FloatText U y) (hpm : IsPm pm) :
    (ufloatFromstr (a ++ (N ++ pm ++ U) ++ b) : PyRes (FNum × FNum)) = checked (x.scale 1, y.scale 1) := by
  obtain ⟨a', N', rfl, ha', hN', hh, hne⟩ := hN.lstrip
  obtain ⟨U', b', rfl, hb', hU', hl, hne'⟩ := hU.rstrip
  have hs : strip (a ++ (a' ++ N' ++ pm ++ (U' ++ b')) ++ b) = N' ++ pm ++ U' := by
    rw [show a ++ (a' ++ N' ++ pm ++ (U' ++ b')) ++ b = (a ++ a') ++ (N' ++ pm ++ U') ++ (b' ++ b) by simp]
    refine stripBy_pad ?_ ?_ ?_ ?_
    · intro c hc
      rcases List.mem_append.1 hc with hc | hc
      · exact ha c hc
      · exact blank_space ha' c hc
    · intro c hc
      rcases List.mem_append.1 hc with hc | hc
      · exact blank_space hb' c hc
      · exact hb c hc
    · intro c hc
      rw [List.append_assoc, List.head?_append_of_ne_nil _ hne] at hc
      exact (hh c hc).1
    · intro c hc
      rw [List.getLast?_append_of_ne_nil _ hne'] at hc
      exact (hl c hc).1
  rw [fromstr_eq, hs, strToNumber_plain, afterFactor_pm hN' hU' hpm]
  · rfl
  · intro h
    rw [List.append_assoc, List.head?_append_of_ne_nil _ hne] at h
    exact (hh _ h).2 rfl

theorem strip_wrapped {a b body : Str} (ha : IsSpaces a) (hb : IsSpaces b) :
    strip (a ++ ('(' :: (body ++ [')'])) ++ b) = '(' :: (body ++ [')']) := by
  refine stripBy_pad ha hb ?_ ?_
  · intro c hc
    obtain rfl : '(' = c := by simpa using hc
    rfl
  · intro c hc
    rw [← List.cons_append, List.getLast?_append] at hc
    obtain rfl : ')' = c := by simpa using hc
    rfl

theorem strip_factor {a b body x : Str} {n : ℤ} (ha : IsSpaces a) (hb : IsSpaces b) (hx : ExpPart x n) (hne : x ≠ []) :
    strip (a ++ ('(' :: (body ++ ')' :: x)) ++ b) = '(' :: (body ++ ')' :: x) := by
  refine stripBy_pad ha hb ?_ ?_
  · intro c hc
    obtain rfl : '(' = c := by simpa using hc
    rfl
  · intro c hc
    rw [show '(' :: (body ++ ')' :: x) = ('(' :: (body ++ [')'])) ++ x by simp, List.getLast?_append_of_ne_nil _ hne] at hc
    exact hx.last c hc

theorem ExpPart.zero {x : Str} {n : ℤ} (h : ExpPart x n) (hx : x = []) : n = 0 := by
  rcases h.cases' with ⟨-, h⟩ | ⟨tt, it, rfl, htt, hit⟩
  · exact h
  · exact absurd (List.append_eq_nil_iff.1 hx).2 hit.ne_nil

theorem FloatText.pm_head {N U pm : Str} {x y : FNum} (hN : FloatText N x) (hpm : IsPm pm) :
    (N ++ pm ++ U).head? ≠ some '(' := by
  intro h
  obtain ⟨a', N', rfl, ha', hN', hh, hne⟩ := hN.lstrip
  cases a' with
  | nil =>
    rw [List.nil_append, List.append_assoc, List.head?_append_of_ne_nil _ hne] at h
    exact (hh _ h).2 rfl
  | cons c a' =>
    obtain rfl : c = '(' := by simpa using h
    rcases ha' '(' (by simp) with h | h <;> exact absurd h (by decide)

end Unc
