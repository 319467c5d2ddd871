import Verif.Spec.Literal
import Verif.Lemmas.ParseText

/-!
# `int()` and `float()`: proofs about the accepted texts
-/

set_option autoImplicit false

namespace Unc

/-! ### Underscores -/

theorem under_not_digit : isDigit '_' = false := by decide +kernel

theorem uOk_split {c : Char} (hd : isDigit c = false) (hc : c ≠ '_') :
    ∀ (a b : Str) (p : Char), underscoresOk p (a ++ c :: b) = (underscoresOk p a && underscoresOk c b)
  | [], b, p => by
    simp only [List.nil_append, underscoresOk, hd, hc, if_false]
    by_cases hp : p = '_' <;> simp [hp]
  | x :: a, b, p => by
    simp only [List.cons_append, underscoresOk]
    rw [uOk_split hd hc a b x, Bool.and_assoc]

theorem uOk_no_under : ∀ (t : Str) (p : Char), p ≠ '_' → '_' ∉ t → underscoresOk p t = true
  | [], p, hp, _ => by simp [underscoresOk, hp]
  | c :: t, p, hp, h => by
    have hc : c ≠ '_' := fun e => h (by simp [e])
    simp only [underscoresOk, hp, hc, if_false, Bool.true_and]
    exact uOk_no_under t c hc fun e => h (List.mem_cons_of_mem _ e)

theorem dropUnderscores_iff (t t' : Str) : dropUnderscores t = some t' ↔ underscoresOk ' ' t = true ∧ t' = digitsOf t := by
  unfold dropUnderscores digitsOf
  by_cases h : '_' ∈ t
  · rw [if_pos h]
    by_cases hu : underscoresOk ' ' t = true
    · rw [if_pos hu]; simp [hu, eq_comm]
    · rw [if_neg hu]; simp [hu]
  · rw [if_neg h]
    have h1 := uOk_no_under t ' ' (by decide) h
    have h2 : t.filter (fun c => decide (c ≠ '_')) = t := List.filter_eq_self.2 fun c hc => by
      simp only [ne_eq, decide_eq_true_eq]
      rintro rfl
      exact h hc
    rw [h2]
    simp [h1, eq_comm]

theorem digitPart_aux : ∀ (t : Str),
    (∀ p, isDigit p = true → underscoresOk p t = true → IsDigits (digitsOf t) → DigitPart (p :: t)) ∧
    (underscoresOk '_' t = true → IsDigits (digitsOf t) → DigitPart t)
  | [] => ⟨fun p hp _ _ => .one p hp, fun h _ => by simp [underscoresOk] at h⟩
  | c :: t => by
    obtain ⟨ih1, ih2⟩ := digitPart_aux t
    have hsub : IsDigits (digitsOf (c :: t)) → IsDigits (digitsOf t) := by
      intro h x hx
      refine h x ?_
      unfold digitsOf at *
      rw [List.filter_cons]
      split
      · exact List.mem_cons_of_mem _ hx
      · exact hx
    refine ⟨?_, ?_⟩
    · intro p hp h hd
      have hpu : p ≠ '_' := by rintro rfl; rw [under_not_digit] at hp; cases hp
      simp only [underscoresOk, hpu, if_false, Bool.and_eq_true] at h
      by_cases hc : c = '_'
      · subst hc
        exact .under p t hp (ih2 h.2 (hsub hd))
      · have hcd : isDigit c = true := hd c (by unfold digitsOf; rw [List.filter_cons]; simp [hc])
        exact .cons p _ hp (ih1 c hcd h.2 (hsub hd))
    · intro h hd
      simp only [underscoresOk, if_true, Bool.and_eq_true] at h
      exact ih1 c h.1 h.2 (hsub hd)

/-- Digits and underscores, after something that is not a digit. -/
theorem digitPart_of {p : Char} {t : Str} (hp : isDigit p = false) (hpu : p ≠ '_') (h : underscoresOk p t = true)
    (hd : IsDigits (digitsOf t)) (ht : digitsOf t ≠ []) : DigitPart t := by
  cases t with
  | nil => exact absurd rfl ht
  | cons c t =>
    simp only [underscoresOk, hpu, if_false, Bool.and_eq_true] at h
    by_cases hc : c = '_'
    · rw [if_pos hc, hp] at h; exact absurd h.1 (by simp)
    · refine (digitPart_aux t).1 c (hd c ?_) h.2 fun x hx => hd x ?_
      · unfold digitsOf; rw [List.filter_cons]; simp [hc]
      · unfold digitsOf at *; rw [List.filter_cons]; simp [hc, hx]
        simp at hx
        exact Or.inr hx

theorem uOk_empty {p : Char} {t : Str} (hp : isDigit p = false) (hpu : p ≠ '_') (h : underscoresOk p t = true)
    (ht : digitsOf t = []) : t = [] := by
  cases t with
  | nil => rfl
  | cons c t =>
    simp only [underscoresOk, hpu, if_false, Bool.and_eq_true] at h
    by_cases hc : c = '_'
    · rw [if_pos hc, hp] at h; exact absurd h.1 (by simp)
    · unfold digitsOf at ht; rw [List.filter_cons] at ht; simp [hc] at ht

/-- Without digits, there are no underscores. -/
theorem uOk_noDigits : ∀ {p : Char} {t : Str}, isDigit p = false → p ≠ '_' → underscoresOk p t = true →
    (∀ c ∈ digitsOf t, isDigit c = false) → digitsOf t = t
  | p, [], _, _, _, _ => rfl
  | p, c :: t, hp, hpu, h, hd => by
    simp only [underscoresOk, hpu, if_false, Bool.and_eq_true] at h
    by_cases hc : c = '_'
    · rw [if_pos hc, hp] at h; exact absurd h.1 (by simp)
    · have e : digitsOf (c :: t) = c :: digitsOf t := by unfold digitsOf; rw [List.filter_cons]; simp [hc]
      rw [e] at hd ⊢
      rw [uOk_noDigits (hd c (by simp)) hc h.2 fun x hx => hd x (List.mem_cons_of_mem _ hx)]

theorem digitsOf_append (a b : Str) : digitsOf (a ++ b) = digitsOf a ++ digitsOf b := by simp [digitsOf]

theorem digitsOf_cons {c : Char} (hc : c ≠ '_') (b : Str) : digitsOf (c :: b) = c :: digitsOf b := by
  simp [digitsOf, hc]

/-- A text with underscores is split where the text without underscores has a character that is not a digit. -/
theorem uOk_lift {p c : Char} {t a' b' : Str} (hd : isDigit c = false) (h : underscoresOk p t = true)
    (ht : digitsOf t = a' ++ c :: b') :
    ∃ a b, t = a ++ c :: b ∧ digitsOf a = a' ∧ digitsOf b = b' ∧ underscoresOk p a = true ∧ underscoresOk c b = true := by
  obtain ⟨a, r, rfl, ha, hr⟩ := List.filter_eq_append_iff.1 ht
  obtain ⟨l1, l2, rfl, h1, h2, h3⟩ := List.filter_eq_cons_iff.1 hr
  have hc : c ≠ '_' := by simpa using h2
  have hl1 : digitsOf l1 = [] := by
    unfold digitsOf
    rw [List.filter_eq_nil_iff]
    intro x hx
    exact h1 x hx
  refine ⟨a ++ l1, l2, by simp, by rw [digitsOf_append, hl1, List.append_nil]; exact ha, h3, ?_⟩
  rw [← List.append_assoc, uOk_split hd hc, Bool.and_eq_true] at h
  exact h

theorem DigitPart.uOk {s : Str} (h : DigitPart s) : ∀ p, p ≠ '_' → underscoresOk p s = true := by
  have key : ∀ (s : Str), DigitPart s → ∀ p, underscoresOk p s = true := by
    intro s h
    induction h with
    | one c hc =>
      intro p
      have : c ≠ '_' := by rintro rfl; rw [under_not_digit] at hc; cases hc
      simp [underscoresOk, hc, this]
    | cons c s hc hs ih =>
      intro p
      have : c ≠ '_' := by rintro rfl; rw [under_not_digit] at hc; cases hc
      simp [underscoresOk, hc, this, ih]
    | under c s hc hs ih =>
      intro p
      have : c ≠ '_' := by rintro rfl; rw [under_not_digit] at hc; cases hc
      simp [underscoresOk, hc, this, ih]
  exact fun p _ => key s h p

theorem DigitPart.digits {s : Str} (h : DigitPart s) : IsDigits (digitsOf s) := by
  induction h with
  | one c hc =>
    have : c ≠ '_' := by rintro rfl; rw [under_not_digit] at hc; cases hc
    rw [digitsOf_cons this]; simpa [IsDigits, digitsOf] using hc
  | cons c s hc hs ih =>
    have : c ≠ '_' := by rintro rfl; rw [under_not_digit] at hc; cases hc
    rw [digitsOf_cons this]
    intro x hx
    rcases List.mem_cons.1 hx with rfl | hx
    · exact hc
    · exact ih x hx
  | under c s hc hs ih =>
    have : c ≠ '_' := by rintro rfl; rw [under_not_digit] at hc; cases hc
    rw [digitsOf_cons this, show digitsOf ('_' :: s) = digitsOf s by simp [digitsOf]]
    intro x hx
    rcases List.mem_cons.1 hx with rfl | hx
    · exact hc
    · exact ih x hx

theorem DigitPart.ne_nil {s : Str} (h : DigitPart s) : digitsOf s ≠ [] := by
  cases h with
  | one c hc =>
    have : c ≠ '_' := by rintro rfl; rw [under_not_digit] at hc; cases hc
    rw [digitsOf_cons this]; simp
  | cons c s hc hs =>
    have : c ≠ '_' := by rintro rfl; rw [under_not_digit] at hc; cases hc
    rw [digitsOf_cons this]; simp
  | under c s hc hs =>
    have : c ≠ '_' := by rintro rfl; rw [under_not_digit] at hc; cases hc
    rw [digitsOf_cons this]; simp

theorem DigitPart.chars {s : Str} (h : DigitPart s) : ∀ c ∈ s, isDigit c = true ∨ c = '_' := by
  intro c hc
  by_cases hu : c = '_'
  · exact .inr hu
  · exact .inl (h.digits c (by simp [digitsOf, hc, hu]))

/-! ### The sign -/

theorem takeSign_spec (t : Str) : ∃ sg, IsSign sg ∧ t = sg ++ (takeSign t).2 ∧ (takeSign t).1 = decide (sg = ['-']) := by
  cases t with
  | nil => exact ⟨[], .inl rfl, rfl, rfl⟩
  | cons c s =>
    unfold takeSign
    by_cases h1 : c = '-'
    · subst h1; exact ⟨['-'], .inr (.inr rfl), by simp, by simp⟩
    · by_cases h2 : c = '+'
      · subst h2; exact ⟨['+'], .inr (.inl rfl), by simp, by simp⟩
      · exact ⟨[], .inl rfl, by simp [h1, h2], by simp [h1, h2]⟩

theorem takeSign_lit {sg t : Str} (h : IsSign sg) (ht : ∀ c, t.head? = some c → c ≠ '-' ∧ c ≠ '+') :
    takeSign (sg ++ t) = (decide (sg = ['-']), t) := by
  rcases h with rfl | rfl | rfl
  · cases t with
    | nil => rfl
    | cons c t =>
      have := ht c rfl
      simp [takeSign, this.1, this.2]
  · simp [takeSign]
  · simp [takeSign]

/-- A sign followed by a text with underscores. -/
theorem uOk_sign {p : Char} {t sg b' : Str} (hp : isDigit p = false) (hpu : p ≠ '_') (hsg : IsSign sg)
    (h : underscoresOk p t = true) (ht : digitsOf t = sg ++ b') :
    ∃ b q, t = sg ++ b ∧ digitsOf b = b' ∧ underscoresOk q b = true ∧ isDigit q = false ∧ q ≠ '_' := by
  rcases hsg with rfl | rfl | rfl
  · exact ⟨t, p, rfl, ht, h, hp, hpu⟩
  all_goals
    obtain ⟨a, b, rfl, ha, hb, ua, ub⟩ := uOk_lift (a' := []) (by decide +kernel) h ht
    have := uOk_empty hp hpu ua ha
    subst this
    exact ⟨b, _, rfl, hb, ub, by decide +kernel, by decide⟩

theorem uOk_sign' {p : Char} {sg b : Str} (hp : p ≠ '_') (hsg : IsSign sg) (h : ∀ q, q ≠ '_' → underscoresOk q b = true) :
    underscoresOk p (sg ++ b) = true := by
  rcases hsg with rfl | rfl | rfl
  · exact h p hp
  · simp [underscoresOk, hp, h '+' (by decide)]
  · simp [underscoresOk, hp, h '-' (by decide)]

theorem digitsOf_sign {sg : Str} (hsg : IsSign sg) (b : Str) : digitsOf (sg ++ b) = sg ++ digitsOf b := by
  rw [digitsOf_append]
  rcases hsg with rfl | rfl | rfl <;> rfl

theorem digit_not_sign {c : Char} (h : isDigit c = true) : c ≠ '-' ∧ c ≠ '+' := by
  constructor <;> (rintro rfl; revert h; decide +kernel)

/-! ### Integers -/

theorem signed_digits {p : Char} {t ds : Str} {neg : Bool} (hp : isDigit p = false) (hpu : p ≠ '_')
    (hu : underscoresOk p t = true) (ht : takeSign (digitsOf t) = (neg, ds)) (hne : ds ≠ []) (hds : ds.all isDigit = true) :
    ∃ sg b, t = sg ++ b ∧ IsSign sg ∧ DigitPart b ∧ digitsOf b = ds ∧ neg = decide (sg = ['-']) := by
  obtain ⟨sg, hsg, h1, h2⟩ := takeSign_spec (digitsOf t)
  rw [ht] at h1 h2
  obtain ⟨b, q, rfl, hb, hq, hqd, hqu⟩ := uOk_sign hp hpu hsg hu h1
  simp only at hb h2
  refine ⟨sg, b, rfl, hsg, digitPart_of hqd hqu hq ?_ ?_, hb, h2⟩
  · rw [hb]; intro c hc; exact List.all_eq_true.1 hds c hc
  · rw [hb]; exact hne

theorem numSpace_not {c : Char} (h : isDigit c = true ∨ c ∈ ['_', '.', 'e', 'E', '+', '-']) : isNumSpace c = false := by
  rcases h with h | h
  · have := digit_not_space h
    simp [isNumSpace, this]
  · simp only [List.mem_cons, List.not_mem_nil, or_false] at h
    rcases h with h | h | h | h | h | h <;> subst h <;> decide +kernel

theorem strip_of {a s b : Str} (ha : ∀ c ∈ a, isNumSpace c = true) (hb : ∀ c ∈ b, isNumSpace c = true)
    (hs : ∀ c ∈ s, isNumSpace c = false) : stripBy isNumSpace (a ++ s ++ b) = s :=
  stripBy_pad ha hb (fun c hc => hs c (List.mem_of_mem_head? hc)) (fun c hc => hs c (List.mem_of_mem_getLast? hc))

theorem sign_chars {sg : Str} (h : IsSign sg) : ∀ c ∈ sg, c ∈ ['_', '.', 'e', 'E', '+', '-'] := by
  rcases h with rfl | rfl | rfl <;> simp

theorem pyInt_iff (s : Str) (n : ℤ) : pyInt s = some n ↔ IntLiteral s n := by
  constructor
  · intro h
    unfold pyInt at h
    obtain ⟨a, b, hab, ha, hb⟩ := stripBy_decomp isNumSpace s
    cases hd : dropUnderscores (stripBy isNumSpace s) with
    | none => rw [hd] at h; cases h
    | some t' =>
      rw [hd] at h
      obtain ⟨hu, rfl⟩ := (dropUnderscores_iff _ _).1 hd
      cases ht : takeSign (digitsOf (stripBy isNumSpace s)) with
      | mk neg ds =>
        simp only [Option.bind_eq_bind, Option.bind_some, ht] at h
        by_cases hds : ds ≠ [] ∧ ds.all isDigit = true
        · rw [if_pos hds] at h
          obtain ⟨sg, b', e, hsg, hb', hbd, hneg⟩ := signed_digits (by decide +kernel) (by decide) hu ht hds.1 hds.2
          have hn : n = signedInt sg b' := by
            unfold signedInt
            rw [hbd]
            simp only [hneg, decide_eq_true_eq, Option.some.injEq] at h
            exact h.symm
          rw [hn, hab, e]
          exact .mk a sg b' b ha hb hsg hb'
        · rw [if_neg hds] at h; cases h
  · rintro ⟨a, sg, ds, b, ha, hb, hsg, hds⟩
    unfold pyInt
    rw [strip_of ha hb]
    · have : dropUnderscores (sg ++ ds) = some (sg ++ digitsOf ds) := by
        rw [dropUnderscores_iff, digitsOf_sign hsg]
        exact ⟨uOk_sign' (by decide) hsg hds.uOk, rfl⟩
      rw [this]
      have h2 := takeSign_lit (t := digitsOf ds) hsg fun c hc => digit_not_sign (hds.digits c (List.mem_of_mem_head? hc))
      simp only [Option.bind_eq_bind, Option.bind_some, h2]
      rw [if_pos ⟨hds.ne_nil, List.all_eq_true.2 hds.digits⟩]
      simp [signedInt]
    · intro c hc
      rcases List.mem_append.1 hc with hc | hc
      · exact numSpace_not (.inr (sign_chars hsg c hc))
      · rcases hds.chars c hc with h | h
        · exact numSpace_not (.inl h)
        · exact numSpace_not (.inr (by simp [h]))


/-! ### Floats -/

theorem digits_or_empty {p : Char} {t : Str} (hp : isDigit p = false) (hpu : p ≠ '_') (h : underscoresOk p t = true)
    (hd : IsDigits (digitsOf t)) : t = [] ∨ DigitPart t := by
  by_cases he : digitsOf t = []
  · exact .inl (uOk_empty hp hpu h he)
  · exact .inr (digitPart_of hp hpu h hd he)

theorem exp_lift {q : Char} {B ds r : Str} {n : ℤ} (hu : underscoresOk q B = true)
    (hB : digitsOf B = ds ++ r) (he : parseExp r = some n) :
    ∃ B1 B2, B = B1 ++ B2 ∧ digitsOf B1 = ds ∧ underscoresOk q B1 = true ∧ ExponentLiteral B2 n := by
  cases r with
  | nil =>
    cases he
    exact ⟨B, [], by simp, by simpa using hB, hu, .none⟩
  | cons c r =>
    simp only [parseExp] at he
    by_cases hc : c = 'e' ∨ c = 'E'
    · rw [if_pos hc] at he
      have hcd : isDigit c = false := by rcases hc with rfl | rfl <;> decide +kernel
      have hcu : c ≠ '_' := by rcases hc with rfl | rfl <;> decide
      obtain ⟨B1, b, rfl, h1, h2, h3, h4⟩ := uOk_lift hcd hu hB
      cases ht : takeSign r with
      | mk neg es =>
        simp only [ht] at he
        by_cases hds : es ≠ [] ∧ es.all isDigit = true
        · rw [if_pos hds] at he
          rw [← h2] at ht
          obtain ⟨sg, b', rfl, hsg, hb', hbd, hneg⟩ := signed_digits hcd hcu h4 ht hds.1 hds.2
          have hn : n = signedInt sg b' := by
            unfold signedInt
            rw [hbd]
            simp only [hneg, decide_eq_true_eq, Option.some.injEq] at he
            exact he.symm
          rw [hn]
          exact ⟨B1, _, rfl, h1, h3, .some c sg b' hc hsg hb'⟩
        · rw [if_neg hds] at he; cases he
    · rw [if_neg hc] at he; cases he

theorem takeWhile_isDigits (s : Str) : IsDigits (s.takeWhile isDigit) := fun _ hc => mem_takeWhile hc

theorem decimal_lift {q : Char} {t : Str} {x : ℚ} (hq : isDigit q = false) (hqu : q ≠ '_') (hu : underscoresOk q t = true)
    (h : parseDecimal (digitsOf t) = some x) :
    ∃ m ip fp e n, t = m ++ e ∧ Mantissa m ip fp ∧ ExponentLiteral e n ∧
      x = (digitsVal (ip ++ fp) : ℚ) * (10 : ℚ) ^ (n - (fp.length : ℤ)) := by
  unfold parseDecimal at h
  have hsplit : digitsOf t = (digitsOf t).takeWhile isDigit ++ (digitsOf t).dropWhile isDigit :=
    (List.takeWhile_append_dropWhile).symm
  have hip := takeWhile_isDigits (digitsOf t)
  generalize (digitsOf t).takeWhile isDigit = ip at *
  generalize (digitsOf t).dropWhile isDigit = r at *
  by_cases hdot : ∃ t1, r = '.' :: t1
  · obtain ⟨t1, rfl⟩ := hdot
    obtain ⟨A, B, rfl, hA, hB, uA, uB⟩ := uOk_lift (by decide +kernel) hu hsplit
    have hfp := takeWhile_isDigits t1
    have e1 : t1 = t1.takeWhile isDigit ++ t1.dropWhile isDigit := (List.takeWhile_append_dropWhile).symm
    simp only [takeDec, if_true] at h
    generalize t1.takeWhile isDigit = fp at *
    generalize t1.dropWhile isDigit = r2 at *
    by_cases hne : ip ++ fp = []
    · rw [if_pos hne] at h; cases h
    · rw [if_neg hne] at h
      cases he : parseExp r2 with
      | none => rw [he] at h; cases h
      | some n =>
        rw [he] at h
        simp only [Option.bind_eq_bind, Option.bind_some, Option.some.injEq] at h
        obtain ⟨B1, B2, rfl, hB1, uB1, hB2⟩ := exp_lift uB (hB.trans e1) he
        subst h
        rcases digits_or_empty hq hqu uA (hA ▸ hip) with rfl | hA'
        · rcases digits_or_empty (by decide +kernel) (by decide) uB1 (hB1 ▸ hfp) with rfl | hB'
          · exact absurd (by rw [← hA, ← hB1]; rfl) hne
          · refine ⟨'.' :: B1, _, _, B2, n, rfl, .only B1 hB', hB2, ?_⟩
            rw [hB1, ← hA]
            rfl
        · rcases digits_or_empty (by decide +kernel) (by decide) uB1 (hB1 ▸ hfp) with rfl | hB'
          · refine ⟨A ++ ['.'], _, _, B2, n, by simp, .dot A hA', hB2, ?_⟩
            rw [hA, ← hB1]
            rfl
          · refine ⟨A ++ '.' :: B1, _, _, B2, n, by simp, .dec A B1 hA' hB', hB2, ?_⟩
            rw [hA, hB1]
  · have htd : takeDec r = ([], r) := by
      cases r with
      | nil => rfl
      | cons c r =>
        have : c ≠ '.' := fun e => hdot ⟨r, by rw [e]⟩
        simp [takeDec, this]
    simp only [htd, List.append_nil] at h
    by_cases hne : ip = []
    · rw [if_pos hne] at h; cases h
    · rw [if_neg hne] at h
      cases he : parseExp r with
      | none => rw [he] at h; cases h
      | some n =>
        rw [he] at h
        simp only [Option.bind_eq_bind, Option.bind_some, Option.some.injEq] at h
        obtain ⟨B1, B2, rfl, hB1, uB1, hB2⟩ := exp_lift hu hsplit he
        subst h
        refine ⟨B1, _, _, B2, n, rfl, .int B1 (digitPart_of hq hqu uB1 (hB1 ▸ hip) (hB1 ▸ hne)), hB2, ?_⟩
        rw [hB1]
        simp

theorem lower_eq {t : Str} {w : Str} (hw : ∀ c ∈ w, isDigit c = false ∧ isNumSpace c = false ∧ c ≠ '_')
    (h : lower t = w) : ∀ c ∈ t, isDigit c = false ∧ isNumSpace c = false ∧ c ≠ '_' := by
  intro c hc
  have h1 : c.toLower ∈ w := by rw [← h]; exact List.mem_map_of_mem hc
  by_cases hup : 'A'.val ≤ c.val ∧ c.val ≤ 'Z'.val
  · have h2 : 65 ≤ c.toNat ∧ c.toNat ≤ 90 := ⟨hup.1, hup.2⟩
    refine ⟨?_, ?_, ?_⟩
    · simp [isDigit]; omega
    · simp [isNumSpace, isSpace]; omega
    · rintro rfl; revert h2; decide
  · have : c.toLower = c := by unfold Char.toLower; rw [dif_neg hup]
    rw [this] at h1
    exact hw c h1

theorem name_chars {t : Str} (h : lower t = "nan".toList ∨ lower t = "inf".toList ∨ lower t = "infinity".toList) :
    ∀ c ∈ t, isDigit c = false ∧ isNumSpace c = false ∧ c ≠ '_' := by
  rcases h with h | h | h <;> exact lower_eq (by decide +kernel) h

theorem ExponentLiteral.uOk {e : Str} {n : ℤ} (he : ExponentLiteral e n) {m : Str} {q : Char}
    (hm : underscoresOk q m = true) : underscoresOk q (m ++ e) = true := by
  cases he with
  | none => simpa using hm
  | some c sg ds hc hsg hds =>
    rw [uOk_split (by rcases hc with rfl | rfl <;> decide +kernel) (by rcases hc with rfl | rfl <;> decide), hm]
    exact uOk_sign' (by rcases hc with rfl | rfl <;> decide) hsg hds.uOk

theorem ExponentLiteral.parse {e : Str} {n : ℤ} (he : ExponentLiteral e n) : parseExp (digitsOf e) = Option.some n := by
  cases he with
  | none => rfl
  | some c sg ds hc hsg hds =>
    rw [digitsOf_cons (by rcases hc with rfl | rfl <;> decide), digitsOf_sign hsg]
    simp only [parseExp]
    rw [if_pos hc]
    have h2 := takeSign_lit (t := digitsOf ds) hsg fun c hc => digit_not_sign (hds.digits c (List.mem_of_mem_head? hc))
    simp only [h2]
    rw [if_pos ⟨hds.ne_nil, List.all_eq_true.2 hds.digits⟩]
    simp [signedInt]

theorem ExponentLiteral.head {e : Str} {n : ℤ} (he : ExponentLiteral e n) :
    ∀ c, (digitsOf e).head? = Option.some c → isDigit c = false ∧ c ≠ '.' := by
  intro x hx
  cases he with
  | none => cases hx
  | some c sg ds hc hsg hds =>
    rw [digitsOf_cons (by rcases hc with rfl | rfl <;> decide)] at hx
    cases hx
    rcases hc with rfl | rfl <;> exact ⟨by decide +kernel, by decide⟩

theorem takeWhile_dig {a r : Str} (ha : IsDigits a) (hr : ∀ c, r.head? = some c → isDigit c = false) :
    (a ++ r).takeWhile isDigit = a ∧ (a ++ r).dropWhile isDigit = r := by
  induction a with
  | nil =>
    cases r with
    | nil => exact ⟨rfl, rfl⟩
    | cons c r =>
      have := hr c rfl
      simp [this]
  | cons c a ih =>
    have h1 := ha c (by simp)
    obtain ⟨i1, i2⟩ := ih fun x hx => ha x (List.mem_cons_of_mem _ hx)
    simp [h1, i1, i2]

theorem Mantissa.parse {m ip fp e : Str} {n : ℤ} (hm : Mantissa m ip fp) (he : ExponentLiteral e n) :
    underscoresOk ' ' (m ++ e) = true ∧ (∀ q, q ≠ '_' → underscoresOk q (m ++ e) = true) ∧
    parseDecimal (digitsOf (m ++ e)) = some ((digitsVal (ip ++ fp) : ℚ) * (10 : ℚ) ^ (n - (fp.length : ℤ))) := by
  have hu : ∀ q, q ≠ '_' → underscoresOk q m = true := by
    intro q hq
    cases hm with
    | int ip h => exact h.uOk q hq
    | dot ip h => rw [uOk_split (by decide +kernel) (by decide), h.uOk q hq]; decide
    | dec ip fp h h' => rw [uOk_split (by decide +kernel) (by decide), h.uOk q hq, h'.uOk _ (by decide)]; rfl
    | only fp h =>
      have := uOk_split (c := '.') (by decide +kernel) (by decide) [] fp q
      rw [List.nil_append] at this
      rw [this, h.uOk _ (by decide)]
      simp [underscoresOk, hq]
  refine ⟨he.uOk (hu _ (by decide)), fun q hq => he.uOk (hu q hq), ?_⟩
  have hh := he.head
  have hp := he.parse
  rw [digitsOf_append]
  generalize digitsOf e = r at *
  have hdot : ∀ (a b : Str), IsDigits a → IsDigits b → a ++ b ≠ [] →
      parseDecimal (a ++ '.' :: b ++ r) = some ((digitsVal (a ++ b) : ℚ) * (10 : ℚ) ^ (n - (b.length : ℤ))) := by
    intro a b ha hb hab
    obtain ⟨i1, i2⟩ := takeWhile_dig (r := '.' :: (b ++ r)) ha (by rintro c h; cases h; decide +kernel)
    obtain ⟨j1, j2⟩ := takeWhile_dig (r := r) hb fun c hc => (hh c hc).1
    unfold parseDecimal
    rw [show a ++ '.' :: b ++ r = a ++ '.' :: (b ++ r) by simp, i1, i2]
    simp only [takeDec, if_true, j1, j2]
    rw [if_neg hab, hp]
    rfl
  cases hm with
  | int ip h =>
    obtain ⟨i1, i2⟩ := takeWhile_dig (r := r) h.digits fun c hc => (hh c hc).1
    have htd : takeDec r = ([], r) := by
      cases r with
      | nil => rfl
      | cons c r => simp [takeDec, (hh c rfl).2]
    unfold parseDecimal
    rw [i1, i2]
    simp only [htd, List.append_nil]
    rw [if_neg h.ne_nil, hp]
    rfl
  | dot ip h =>
    rw [digitsOf_append]
    refine hdot (digitsOf ip) [] h.digits (by simp [IsDigits]) (by simpa using h.ne_nil)
  | dec ip fp h h' =>
    rw [digitsOf_append, digitsOf_cons (by decide)]
    exact hdot _ _ h.digits h'.digits (by simp [h.ne_nil])
  | only fp h =>
    rw [digitsOf_cons (by decide)]
    exact hdot [] _ (by simp [IsDigits]) h.digits (by simpa using h.ne_nil)

theorem Mantissa.chars {m ip fp : Str} (hm : Mantissa m ip fp) : ∀ c ∈ m, isDigit c = true ∨ c ∈ ['_', '.', 'e', 'E', '+', '-'] := by
  have key : ∀ {s : Str}, DigitPart s → ∀ c ∈ s, isDigit c = true ∨ c ∈ ['_', '.', 'e', 'E', '+', '-'] := by
    intro s hs c hc
    rcases hs.chars c hc with h | h
    · exact .inl h
    · exact .inr (by simp [h])
  intro c hc
  cases hm with
  | int ip h => exact key h c hc
  | dot ip h =>
    rcases List.mem_append.1 hc with hc | hc
    · exact key h c hc
    · exact .inr (by simp at hc; simp [hc])
  | dec ip fp h h' =>
    rcases List.mem_append.1 hc with hc | hc
    · exact key h c hc
    · rcases List.mem_cons.1 hc with rfl | hc
      · exact .inr (by simp)
      · exact key h' c hc
  | only fp h =>
    rcases List.mem_cons.1 hc with rfl | hc
    · exact .inr (by simp)
    · exact key h c hc

theorem ExponentLiteral.chars {e : Str} {n : ℤ} (he : ExponentLiteral e n) :
    ∀ c ∈ e, isDigit c = true ∨ c ∈ ['_', '.', 'e', 'E', '+', '-'] := by
  intro x hx
  cases he with
  | none => cases hx
  | some c sg ds hc hsg hds =>
    rcases List.mem_cons.1 hx with rfl | hx
    · rcases hc with rfl | rfl <;> simp
    · rcases List.mem_append.1 hx with hx | hx
      · exact .inr (sign_chars hsg x hx)
      · rcases hds.chars x hx with h | h
        · exact .inl h
        · exact .inr (by simp [h])

theorem Mantissa.head {m ip fp : Str} (hm : Mantissa m ip fp) : ∃ c s, digitsOf m = c :: s ∧ (isDigit c = true ∨ c = '.') := by
  have key : ∀ {s : Str}, DigitPart s → ∃ c s', digitsOf s = c :: s' ∧ isDigit c = true := by
    intro s hs
    obtain ⟨c, s', e⟩ := List.exists_cons_of_ne_nil hs.ne_nil
    exact ⟨c, s', e, hs.digits c (by simp [e])⟩
  cases hm with
  | int ip h =>
    obtain ⟨c, s', e, hc⟩ := key h
    exact ⟨c, s', e, .inl hc⟩
  | dot ip h =>
    obtain ⟨c, s', e, hc⟩ := key h
    exact ⟨c, s' ++ ['.'], by rw [digitsOf_append, e]; rfl, .inl hc⟩
  | dec ip fp h h' =>
    obtain ⟨c, s', e, hc⟩ := key h
    exact ⟨c, s' ++ digitsOf ('.' :: fp), by rw [digitsOf_append, e]; rfl, .inl hc⟩
  | only fp h => exact ⟨'.', digitsOf fp, digitsOf_cons (by decide) _, .inr rfl⟩

theorem lower_digit_head {c : Char} {s : Str} (hc : isDigit c = true ∨ c = '.') :
    lower (c :: s) ≠ "nan".toList ∧ ¬ (lower (c :: s) = "inf".toList ∨ lower (c :: s) = "infinity".toList) := by
  have h1 : c.toLower = c := by
    unfold Char.toLower
    rw [dif_neg]
    rintro ⟨h1, h2⟩
    have h3 : 65 ≤ c.toNat ∧ c.toNat ≤ 90 := ⟨h1, h2⟩
    rcases hc with hc | rfl
    · simp [isDigit] at hc; omega
    · revert h3; decide
  have h2 : c ≠ 'n' ∧ c ≠ 'i' := by
    rcases hc with hc | rfl
    · constructor <;> (rintro rfl; revert hc; decide +kernel)
    · decide
  constructor
  · intro h
    have : (lower (c :: s)).head? = some 'n' := by rw [h]; rfl
    simp only [lower, List.map_cons, List.head?_cons, Option.some.injEq, h1] at this
    exact h2.1 this
  · rintro (h | h)
    all_goals
      have : (lower (c :: s)).head? = some 'i' := by rw [h]; rfl
      simp only [lower, List.map_cons, List.head?_cons, Option.some.injEq, h1] at this
      exact h2.2 this

theorem pyFloat_iff (s : Str) (x : FNum) : pyFloat s = some x ↔ FloatLiteral s x := by
  constructor
  · intro h
    unfold pyFloat at h
    obtain ⟨a, b, hab, ha, hb⟩ := stripBy_decomp isNumSpace s
    cases hd : dropUnderscores (stripBy isNumSpace s) with
    | none => rw [hd] at h; cases h
    | some t' =>
      rw [hd] at h
      obtain ⟨hu, rfl⟩ := (dropUnderscores_iff _ _).1 hd
      obtain ⟨sg, hsg, h1, h2⟩ := takeSign_spec (digitsOf (stripBy isNumSpace s))
      cases ht : takeSign (digitsOf (stripBy isNumSpace s)) with
      | mk neg body =>
        simp only [Option.bind_eq_bind, Option.bind_some, ht] at h
        rw [ht] at h1 h2
        obtain ⟨t, q, e, hb', hq, hqd, hqu⟩ := uOk_sign (by decide +kernel) (by decide) hsg hu h1
        simp only at hb' h2
        subst hb' h2
        rw [hab, e]
        refine .mk a sg t b x ha hb hsg ?_
        by_cases hn : lower (digitsOf t) = "nan".toList
        · rw [if_pos hn] at h
          cases h
          have := uOk_noDigits hqd hqu hq fun c hc => (name_chars (.inl hn) c hc).1
          rw [this] at hn
          exact .nan t hn
        · rw [if_neg hn] at h
          by_cases hi : lower (digitsOf t) = "inf".toList ∨ lower (digitsOf t) = "infinity".toList
          · rw [if_pos hi] at h
            cases h
            have := uOk_noDigits hqd hqu hq fun c hc => (name_chars (.inr hi) c hc).1
            rw [this] at hi
            exact .inf t hi
          · rw [if_neg hi] at h
            cases hp : parseDecimal (digitsOf t) with
            | none => rw [hp] at h; cases h
            | some y =>
              rw [hp] at h
              obtain ⟨m, ip, fp, e', n, rfl, hm, he, rfl⟩ := decimal_lift hqd hqu hq hp
              simp only [Option.bind_some, Option.some.injEq] at h
              subst h
              have := FloatBody.decimal (neg := decide (sg = ['-'])) m ip fp e' n hm he
              convert this using 2
              by_cases hs : sg = ['-'] <;> simp [hs]
  · rintro ⟨a, sg, t, b, x, ha, hb, hsg, ht⟩
    have hsgc := sign_chars hsg
    unfold pyFloat
    cases ht with
    | decimal m ip fp e n hm he =>
      obtain ⟨-, hu, hp⟩ := hm.parse he
      rw [strip_of ha hb]
      · have : dropUnderscores (sg ++ (m ++ e)) = some (sg ++ digitsOf (m ++ e)) := by
          rw [dropUnderscores_iff, digitsOf_sign hsg]
          exact ⟨uOk_sign' (by decide) hsg hu, rfl⟩
        rw [this]
        obtain ⟨c, s', ec, hc⟩ := hm.head
        have ec' : digitsOf (m ++ e) = c :: (s' ++ digitsOf e) := by rw [digitsOf_append, ec]; rfl
        have h2 := takeSign_lit (t := digitsOf (m ++ e)) hsg (by
          rw [ec']
          intro c' hc'
          cases hc'
          rcases hc with hc | rfl
          · exact digit_not_sign hc
          · decide)
        simp only [Option.bind_eq_bind, Option.bind_some, h2]
        have h3 := lower_digit_head (s := s' ++ digitsOf e) hc
        rw [← ec'] at h3
        rw [if_neg h3.1, if_neg h3.2, hp]
        simp only [Option.bind_some, Option.some.injEq]
        by_cases hs : sg = ['-'] <;> simp [hs]
      · intro c hc
        rcases List.mem_append.1 hc with hc | hc
        · exact numSpace_not (.inr (hsgc c hc))
        · rcases List.mem_append.1 hc with hc | hc
          · exact numSpace_not (hm.chars c hc)
          · exact numSpace_not (he.chars c hc)
    | nan t h =>
      have hch := name_chars (.inl h)
      have hu : '_' ∉ t := fun hh => (hch _ hh).2.2 rfl
      have hf : digitsOf t = t := by
        unfold digitsOf
        rw [List.filter_eq_self]
        intro c hc
        simpa using (hch c hc).2.2
      rw [strip_of ha hb]
      · have : dropUnderscores (sg ++ t) = some (sg ++ t) := by
          rw [dropUnderscores_iff, digitsOf_sign hsg, hf]
          exact ⟨uOk_sign' (by decide) hsg fun q hq => uOk_no_under t q hq hu, rfl⟩
        rw [this]
        have h2 := takeSign_lit (t := t) hsg (by
          intro c hc
          constructor <;> rintro rfl
          all_goals
            obtain ⟨l, rfl⟩ : ∃ l, t = _ :: l := by
              cases t with
              | nil => cases hc
              | cons d l => cases hc; exact ⟨l, rfl⟩
            have := congrArg List.head? h
            revert this
            simp [lower])
        simp only [Option.bind_eq_bind, Option.bind_some, h2]
        rw [if_pos h]
      · intro c hc
        rcases List.mem_append.1 hc with hc | hc
        · exact numSpace_not (.inr (hsgc c hc))
        · exact (hch c hc).2.1
    | inf t h =>
      have hch := name_chars (.inr h)
      have hu : '_' ∉ t := fun hh => (hch _ hh).2.2 rfl
      have hhead : (lower t).head? = some 'i' := by rcases h with h | h <;> (rw [h]; rfl)
      have hf : digitsOf t = t := by
        unfold digitsOf
        rw [List.filter_eq_self]
        intro c hc
        simpa using (hch c hc).2.2
      rw [strip_of ha hb]
      · have : dropUnderscores (sg ++ t) = some (sg ++ t) := by
          rw [dropUnderscores_iff, digitsOf_sign hsg, hf]
          exact ⟨uOk_sign' (by decide) hsg fun q hq => uOk_no_under t q hq hu, rfl⟩
        rw [this]
        have h2 := takeSign_lit (t := t) hsg (by
          intro c hc
          constructor <;> rintro rfl
          all_goals
            obtain ⟨l, rfl⟩ : ∃ l, t = _ :: l := by
              cases t with
              | nil => cases hc
              | cons d l => cases hc; exact ⟨l, rfl⟩
            revert hhead
            simp [lower])
        simp only [Option.bind_eq_bind, Option.bind_some, h2]
        have hnn : lower t ≠ "nan".toList := by
          intro e
          rw [e] at hhead
          revert hhead
          decide
        rw [if_neg hnn, if_pos h]
      · intro c hc
        rcases List.mem_append.1 hc with hc | hc
        · exact numSpace_not (.inr (hsgc c hc))
        · exact (hch c hc).2.1

end Unc
