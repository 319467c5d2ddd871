import Verif.Lemmas.Layout
import Verif.Lemmas.FormatSpecial

/-!
# Formatting always succeeds
-/

set_option autoImplicit false

namespace Unc

/-- A precision and type that Python accepts. -/
structure GoodSuffix (suf : Str) : Prop where
  parse : ∃ r, parsePrecType suf = some r
  head : ∀ c, suf.head? = some c → isDigit c = false ∧ c ≠ ',' ∧ c ∉ "+- ".toList

theorem GoodSuffix.fixed (prec : ℕ) {t : Char} (ht : t = 'f' ∨ t = 'F') : GoodSuffix (fixedSuffix prec t) :=
  ⟨⟨_, parsePrecType_fixed prec ht⟩, by
    intro c hc
    obtain rfl : '.' = c := by simpa [fixedSuffix] using hc
    decide⟩

theorem GoodSuffix.general {type : Str} (h : isGType type = true) : GoodSuffix type := by
  unfold isGType at h
  simp only [Bool.or_eq_true, decide_eq_true_eq] at h
  rcases h with (rfl | rfl) | rfl
  · exact ⟨⟨_, rfl⟩, by intro c hc; cases hc⟩
  · refine ⟨⟨_, rfl⟩, ?_⟩
    intro c hc
    obtain rfl : 'g' = c := by simpa using hc
    decide
  · refine ⟨⟨_, rfl⟩, ?_⟩
    intro c hc
    obtain rfl : 'G' = c := by simpa using hc
    decide

/-- Reading an optional zero. -/
def takeZero (s : Str) : Bool × Str := match s with
  | '0' :: t => (true, t)
  | t => (false, t)

/-- Reading an optional comma. -/
def takeComma (s : Str) : Bool × Str := match s with
  | ',' :: t => (true, t)
  | t => (false, t)

theorem takeZero_no {s : Str} (h : s.head? ≠ some '0') : takeZero s = (false, s) := by
  unfold takeZero
  split
  · exact absurd rfl h
  · rfl

theorem takeComma_no {s : Str} (h : s.head? ≠ some ',') : takeComma s = (false, s) := by
  unfold takeComma
  split
  · exact absurd rfl h
  · rfl

/-- How Python reads a specification, once the sign is read. -/
def specRest (sign : Option Char) (s : Str) : Option FloatSpec := do
  let (zero, s) := takeZero s
  let width := digitsVal (s.takeWhile isDigit)
  let s := s.dropWhile isDigit
  let (comma, s) := takeComma s
  let (prec, type) ← parsePrecType s
  some { sign, zero, width, comma, prec, type }

theorem parseFloatSpec_nosign {s : Str} (h : ∀ c, s.head? = some c → c ∉ "+- ".toList) :
    parseFloatSpec s = specRest none s := by
  cases s with
  | nil => rfl
  | cons c t =>
    unfold parseFloatSpec
    simp only [if_neg (h c rfl)]
    rfl

theorem parseFloatSpec_sign {c : Char} {s : Str} (h : c ∈ "+- ".toList) :
    parseFloatSpec (c :: s) = specRest (some c) s := by
  unfold parseFloatSpec
  simp only [if_pos h]
  rfl

/-- How Python reads a specification, once the width is read. -/
def specEnd (sign : Option Char) (zero : Bool) (width : ℕ) (s : Str) : Option FloatSpec := do
  let (comma, s) := takeComma s
  let (prec, type) ← parsePrecType s
  some { sign, zero, width, comma, prec, type }

theorem specEnd_ok {sign : Option Char} {zero : Bool} {width : ℕ} {suf : Str} (h : GoodSuffix suf) (comma : Bool) :
    ∃ f, specEnd sign zero width ((if comma then [','] else []) ++ suf) = some f := by
  obtain ⟨r, hr⟩ := h.parse
  cases comma
  · have : takeComma suf = (false, suf) := takeComma_no fun hc => (h.head ',' hc).2.1 rfl
    unfold specEnd
    simp only [Bool.false_eq_true, if_false, List.nil_append, this, hr]
    exact ⟨_, rfl⟩
  · have : takeComma ([','] ++ suf) = (true, suf) := rfl
    unfold specEnd
    simp only [if_true, this, hr]
    exact ⟨_, rfl⟩

theorem end_head {suf : Str} (h : GoodSuffix suf) (comma : Bool) :
    ∀ c, ((if comma then [','] else []) ++ suf).head? = some c → isDigit c = false ∧ c ∉ "+- ".toList := by
  intro c hc
  cases comma
  · have := h.head c (by simpa using hc)
    exact ⟨this.1, this.2.2⟩
  · obtain rfl : ',' = c := by simpa using hc
    decide

theorem specRest_ok {sign : Option Char} {suf : Str} (h : GoodSuffix suf) (zero : Option ℕ) (comma : Bool) :
    ∃ f, specRest sign ((match zero with | some w => '0' :: natStr w | none => []) ++ ((if comma then [','] else []) ++ suf)) = some f := by
  have hh : NoDHead ((if comma then [','] else []) ++ suf) := fun c hc => (end_head h comma c hc).1
  cases zero with
  | some w =>
    obtain ⟨h1, h2⟩ := takeWhile_digits (natStr_digits w) hh
    obtain ⟨f, hf⟩ := specEnd_ok (sign := sign) (zero := true) (width := w) h comma
    refine ⟨f, ?_⟩
    rw [← hf]
    have hm : ∀ t, takeZero ('0' :: t) = (true, t) := fun _ => rfl
    unfold specRest
    simp only [List.cons_append, hm, h1, h2, digitsVal_natStr]
    rfl
  | none =>
    obtain ⟨h1, h2⟩ := takeWhile_digits AllD.nil hh
    rw [List.nil_append] at h1 h2
    obtain ⟨f, hf⟩ := specEnd_ok (sign := sign) (zero := false) (width := 0) h comma
    refine ⟨f, ?_⟩
    rw [← hf, List.nil_append]
    have hm : takeZero ((if comma then [','] else []) ++ suf) = (false, (if comma then [','] else []) ++ suf) :=
      takeZero_no fun hc => absurd (hh '0' hc) (by decide)
    unfold specRest
    simp only [hm, h1, h2]
    rfl

/-- Python accepts the specifications built by `format_num`, whatever the number. -/
theorem pyFormat_total {suf : Str} (h : GoodSuffix suf) (x : FNum) {sign : Option Char} (hs : ∀ c ∈ sign, c ∈ "+- ".toList)
    (zero : Option ℕ) (comma : Bool) : ∃ s, pyFormat x (specPrefix sign zero comma ++ suf) = .ok s := by
  have : ∃ f, parseFloatSpec (specPrefix sign zero comma ++ suf) = some f := by
    unfold specPrefix
    rw [List.append_assoc, List.append_assoc]
    obtain ⟨f, hf⟩ := specRest_ok (sign := sign) h zero comma
    refine ⟨f, ?_⟩
    rw [← hf]
    cases sign with
    | some c =>
      exact parseFloatSpec_sign (hs c rfl)
    | none =>
      refine parseFloatSpec_nosign ?_
      intro c hc
      cases zero with
      | some w =>
        obtain rfl : '0' = c := by simpa using hc
        decide
      | none => exact (end_head h comma c hc).2
  obtain ⟨f, hf⟩ := this
  unfold pyFormat
  rw [hf]
  exact ⟨_, rfl⟩

theorem robustAlign_total {p : FmtParts} (ha : p.align ≠ ['=']) (s : Str) :
    p.align = [] ∨ (∃ c, p.align = [c]) → ∃ A, robustAlign s p.fill (effectiveAlign p) p.width = .ok A := by
  intro h
  have : effectiveAlign p ≠ '=' := by
    unfold effectiveAlign
    rcases h with h | ⟨c, h⟩
    · rw [h]; decide
    · rw [h] at ha ⊢
      simpa using ha
  unfold robustAlign
  rw [if_neg this]
  exact ⟨_, rfl⟩

theorem ite_align_total {p : FmtParts} (hv : p.Valid) (ha : p.align = ['='] → p.width = []) (s : Str) :
    ∃ A, (if p.width ≠ [] then robustAlign s p.fill (effectiveAlign p) p.width else pure s : PyRes Str) = .ok A := by
  by_cases hw : p.width ≠ []
  · rw [if_pos hw]
    refine robustAlign_total (fun h => hw (ha h)) s ?_
    rcases hv.align with h | ⟨c, -, h⟩
    · exact .inl h
    · exact .inr ⟨c, h⟩
  · rw [if_neg hw]
    exact ⟨_, rfl⟩

section
variable {p : FmtParts} (hv : p.Valid) (ha : p.align = ['='] → p.width = []) {nom err : FNum} {t : Char}
  (ht : t = 'f' ∨ t = 'F')
  (hg : p.prec = none ∨ isGType p.type = false ∨ specialError err = false ∧ nom.isInfinite = false)
include hv ht hg

theorem suffixN_good (prec : ℕ) : GoodSuffix (fmtSuffixN err p prec t) := by
  unfold fmtSuffixN
  by_cases h : (specialError err && isGType p.type) = true
  · rw [if_pos h]
    simp only [Bool.and_eq_true] at h
    rcases hg with h1 | h1 | h1
    · unfold gSuffix
      rw [h1, Option.getD_none, List.nil_append]
      exact .general h.2
    · rw [h1] at h; cases h.2
    · rw [h1.1] at h; cases h.1
  · rw [if_neg h]
    exact .fixed prec ht

theorem suffixE_good (prec : ℕ) : GoodSuffix (fmtSuffixE nom err p prec t) := by
  unfold fmtSuffixE
  by_cases h0 : err.truthy = true
  · rw [if_pos h0]
    by_cases h : (nom.isInfinite && isGType p.type) = true
    · rw [if_pos h]
      simp only [Bool.and_eq_true] at h
      rcases hg with h1 | h1 | h1
      · unfold gSuffix
        rw [h1, Option.getD_none, List.nil_append]
        exact .general h.2
      · rw [h1] at h; cases h.2
      · rw [h1.2] at h; cases h.1
    · rw [if_neg h]
      exact .fixed prec ht
  · rw [if_neg h0]
    exact GoodSuffix.fixed 0 ht

include ha in
theorem formatPm_total (e : Option ℤ) (prec : ℕ) (options : Str) : ∃ out, formatPm nom err e p prec t options = .ok out := by
  have h1 : ∀ z, ∃ s, pyFormat nom (specPrefix p.sign.head? z (p.comma ≠ []) ++ fmtSuffixN err p prec t) = .ok s :=
    fun z => pyFormat_total (suffixN_good hv ht hg prec) _ (sign_head hv) _ _
  have h2 : ∀ z, ∃ s, pyFormat err (specPrefix none z (p.comma ≠ []) ++ fmtSuffixE nom err p prec t) = .ok s :=
    fun z => pyFormat_total (suffixE_good hv ht hg prec) _ (by simp) _ _
  have fin : ∀ A B : Str, ∃ out, (if ((decide (p.width = [])) && e.isSome) = true then
        (pure ((grouping options).1 ++ (A ++ pmSymbol options ++ B) ++ (grouping options).2 ++ expStr e t options ++
          percentStr options) : PyRes Str)
      else if percentStr options ≠ [] then
        pure ((grouping options).1 ++ (A ++ pmSymbol options ++ B) ++ (grouping options).2 ++ percentStr options)
      else if 'p' ∈ options then
        pure ((grouping options).1 ++ (A ++ pmSymbol options ++ B) ++ (grouping options).2)
      else pure (A ++ pmSymbol options ++ B)) = .ok out := by
    intro A B
    split_ifs <;> exact ⟨_, rfl⟩
  have bnd : ∀ {m : PyRes Str} {k : Str → PyRes Str}, (∃ a, m = .ok a) → (∀ a, ∃ o, k a = .ok o) → ∃ o, (m >>= k) = .ok o := by
    rintro m k ⟨a, rfl⟩ hk
    exact hk a
  unfold formatPm
  simp only []
  refine bnd ?_ fun Ns => bnd ?_ fun Es => ?_
  · by_cases hwz : p.width ≠ [] ∧ p.zero ≠ []
    · rw [if_pos hwz]
      simp only []
      rw [prefix_zero hv hwz.2]
      exact h1 _
    · rw [if_neg hwz]
      simp only []
      rw [prefix_plain hv]
      exact h1 _
  · by_cases hwz : p.width ≠ [] ∧ p.zero ≠ []
    · rw [if_pos hwz]
      simp only []
      rw [prefix_zero_err hv hwz.2]
      exact h2 _
    · rw [if_neg hwz]
      simp only []
      have := h2 none
      rwa [← prefix_comma hv] at this
  · have step : ∀ (s : Str) (k : Str → PyRes Str), (∀ a, ∃ o, k a = .ok o) → ∃ o,
        (if p.width ≠ [] then robustAlign s p.fill (effectiveAlign p) p.width >>= k else pure s >>= k) = .ok o := by
      intro s k hk
      obtain ⟨A, hA⟩ := ite_align_total hv ha s
      obtain ⟨o, ho⟩ := hk A
      refine ⟨o, ?_⟩
      by_cases hw : p.width ≠ []
      · rw [if_pos hw] at hA ⊢
        rw [hA]
        exact ho
      · rw [if_neg hw] at hA ⊢
        injection hA with hA
        rw [hA]
        exact ho
    exact step _ _ fun A => step _ _ fun B => fin A B

include ha in
theorem formatShorthand_total (e : Option ℤ) (prec : ℕ) (options : Str) (hp308 : ∀ u, err = .fin u → prec ≤ 308) :
    ∃ out, formatShorthand nom err e p prec t options = .ok out := by
  have h1 : ∀ z, ∃ s, pyFormat nom (specPrefix p.sign.head? z (p.comma ≠ []) ++ fmtSuffixN err p prec t) = .ok s :=
    fun z => pyFormat_total (suffixN_good hv ht hg prec) _ (sign_head hv) _ _
  have h2 : ∃ U, uncertStr err prec t options = .ok U := by
    have hp : ∀ y, ∃ s, pyFormat y [t] = .ok s := by
      intro y
      rcases ht with rfl | rfl <;> exact ⟨_, rfl⟩
    unfold uncertStr
    cases err with
    | fin q =>
      simp only []
      have h3 : ¬ShortOverflow q prec := fun h => absurd (hp308 q rfl) (not_le.2 h.1)
      rw [shorthandUncert_eq, if_neg h3]
      split_ifs <;> exact ⟨_, rfl⟩
    | nan =>
      obtain ⟨s, hs⟩ := hp .nan
      simp only [hs]
      exact ⟨_, rfl⟩
    | inf neg =>
      simp only []
      split_ifs
      · exact ⟨_, rfl⟩
      · exact hp _
  have bnd : ∀ {m : PyRes Str} {k : Str → PyRes Str}, (∃ a, m = .ok a) → (∀ a, ∃ o, k a = .ok o) → ∃ o, (m >>= k) = .ok o := by
    rintro m k ⟨a, rfl⟩ hk
    exact hk a
  unfold formatShorthand
  simp only []
  refine bnd h2 fun U => bnd ?_ fun Ns => ?_
  · by_cases hwz : p.zero ≠ [] ∧ p.width ≠ []
    · rw [if_pos hwz, prefix_zero hv hwz.1]
      exact h1 _
    · rw [if_neg hwz, prefix_plain hv]
      exact h1 _
  · exact ite_align_total hv ha _

end

/-! ### The calculations -/

theorem round_bounds {v : ℚ} {l : ℤ} (h : 1 ≤ rhe (v / (10 : ℚ) ^ l)) : v / 2 ≤ pyRound v (-l) ∧ pyRound v (-l) ≤ 2 * v := by
  have hl := ten_pos l
  have h1 := abs_le.1 (rhe_near (v / (10 : ℚ) ^ l))
  have h2 : (1 : ℚ) ≤ (rhe (v / (10 : ℚ) ^ l) : ℚ) := by exact_mod_cast h
  have hv : v = v / (10 : ℚ) ^ l * (10 : ℚ) ^ l := by field_simp
  rw [pyRound_mul]
  generalize v / (10 : ℚ) ^ l = y at *
  rw [hv]
  constructor
  · have : y / 2 ≤ (rhe y : ℚ) := by
      by_cases hy : y ≤ 1
      · linarith
      · linarith [h1.2]
    nlinarith
  · have : (rhe y : ℚ) ≤ 2 * y := by linarith [h1.1, h1.2]
    nlinarith

/-- Zero, or a number between `10**-N` and `10**N`. -/
def Moderate (N : ℤ) (v : ℚ) : Prop := v = 0 ∨ (10 : ℚ) ^ (-N) ≤ v ∧ v ≤ (10 : ℚ) ^ N

theorem Moderate.max {N : ℤ} {a b : ℚ} (ha : Moderate N a) (hb : Moderate N b) : Moderate N (max a b) := by
  rcases max_choice a b with h | h <;> rw [h] <;> assumption

theorem Moderate.nonneg {N : ℤ} {a : ℚ} (ha : Moderate N a) : 0 ≤ a := by
  rcases ha with h | h
  · exact h.ge
  · exact (ten_pos _).le.trans h.1

theorem moderate_exponent {N : ℤ} (hN : 0 ≤ N) {v : ℚ} (hv : Moderate N v) (l : ℤ) :
    -N - 1 ≤ firstDigit (pyRound v (-l)) ∧ firstDigit (pyRound v (-l)) ≤ N := by
  by_cases h : 1 ≤ rhe (v / (10 : ℚ) ^ l)
  · obtain ⟨h1, h2⟩ := round_bounds h
    have hl := ten_pos l
    have h3 : (1 : ℚ) ≤ (rhe (v / (10 : ℚ) ^ l) : ℚ) := by exact_mod_cast h
    have hpos : 0 < pyRound v (-l) := by rw [pyRound_mul]; positivity
    have hv' : (10 : ℚ) ^ (-N) ≤ v ∧ v ≤ (10 : ℚ) ^ N := by
      rcases hv with hv | hv
      · linarith
      · exact hv
    obtain ⟨a1, a2⟩ := firstDigit_spec hpos.ne'
    rw [abs_of_pos hpos] at a1 a2
    constructor
    · by_contra hc
      have : (10 : ℚ) ^ (firstDigit (pyRound v (-l)) + 1) ≤ (10 : ℚ) ^ (-N - 1) := ten_le_iff.2 (by omega)
      have e : (10 : ℚ) ^ (-N) = 10 * (10 : ℚ) ^ (-N - 1) := by
        have h4 : (10 : ℚ) ^ ((-N - 1) + 1) = (10 : ℚ) ^ (-N - 1) * 10 := zpow_add_one₀ (by norm_num) _
        rw [mul_comm, ← h4, sub_add_cancel]
      have := ten_pos (-N - 1)
      linarith [hv'.1]
    · by_contra hc
      have : (10 : ℚ) ^ (N + 1) ≤ (10 : ℚ) ^ (firstDigit (pyRound v (-l))) := ten_le_iff.2 (by omega)
      have e : (10 : ℚ) ^ (N + 1) = 10 * (10 : ℚ) ^ N := by
        rw [zpow_add_one₀ (by norm_num), mul_comm]
      have h300 := ten_pos N
      have h5 := hv'.2
      rw [e] at this
      generalize (10 : ℚ) ^ N = M at *
      linarith
  · have h0 : rhe (v / (10 : ℚ) ^ l) = 0 := by
      have := rhe_nonneg (div_nonneg hv.nonneg (ten_pos l).le)
      omega
    rw [pyRound_mul, h0]
    have : firstDigit ((0 : ℤ) * (10 : ℚ) ^ l) = 0 := by
      unfold firstDigit
      simp
    rw [this]
    omega

/-- All finite values are moderate. -/
def FNum.Moderate (N : ℤ) : FNum → Prop
  | .fin q => Unc.Moderate N |q|
  | _ => True

theorem commonExponent_moderate {N : ℤ} (hN : 0 ≤ N) {pres : Option Char} {reals : List ℚ} (hm : ∀ v ∈ reals, Moderate N v)
    {l : Option ℤ} {e : ℤ} (h : commonExponent pres reals l = some e) : -N - 1 ≤ e ∧ e ≤ N := by
  unfold commonExponent at h
  by_cases hf : pres = some 'f' ∨ pres = some 'F'
  · rw [if_pos hf] at h; cases h
  · rw [if_neg hf] at h
    have hr : ∀ v, expRefValue reals = some v → Moderate N v := by
      intro v hv
      match reals, hm, hv with
      | [a], hm, hv =>
        obtain rfl : a = v := by simpa [expRefValue] using hv
        exact hm _ (by simp)
      | a :: b :: _, hm, hv =>
        obtain rfl : max a b = v := by simpa [expRefValue] using hv
        exact (hm a (by simp)).max (hm b (by simp))
    cases hv : expRefValue reals with
    | none => rw [hv] at h; cases h
    | some v =>
      rw [hv] at h
      cases l with
      | none => cases h
      | some l =>
        simp only [] at h
        have := moderate_exponent hN (hr v hv) l
        split_ifs at h <;> injection h with h <;> rw [← h] <;> exact this

theorem realValues_moderate {N : ℤ} {x s : FNum} (hx : x.Moderate N) (hs : s.Moderate N) (hpos : ∀ q, s = .fin q → 0 ≤ q) :
    ∀ v ∈ realValues x s, Moderate N v := by
  intro v hv
  unfold realValues at hv
  rcases List.mem_append.1 hv with hv | hv
  · cases x with
    | fin q =>
      obtain rfl : v = |q| := by simpa using hv
      exact hx
    | _ => cases hv
  · cases s with
    | fin q =>
      obtain rfl : v = q := by simpa using hv
      have : |v| = v := abs_of_nonneg (hpos v rfl)
      have h2 : Moderate N |v| := hs
      rwa [this] at h2
    | _ => cases hv

theorem digitsLimit_total {p : FmtParts} (hv : p.Valid) (h0 : p.uncertPrec ≠ [] → ∀ d, p.prec = some d → digitsVal d ≠ 0)
    (pres : Option Char) (nom std : FNum) : ∃ r, digitsLimit p pres nom std = .ok r := by
  have hfl : ∀ (fp : Str) (reals : List ℚ), ∃ r, digitsLimit.floatLimit pres std fp reals = .ok r := by
    intro fp reals
    unfold digitsLimit.floatLimit
    simp only []
    split_ifs
    all_goals first
      | exact ⟨_, rfl⟩
      | (split <;> exact ⟨_, rfl⟩)
  unfold digitsLimit
  simp only []
  split
  · rename_i s hc
    by_cases hs : s ≠ 0
    · rw [if_pos hs]
      by_cases hp : p.prec.getD [] ≠ []
      · rw [if_pos hp]
        obtain ⟨d, hd⟩ : ∃ d, p.prec = some d := by
          cases hpp : p.prec with
          | none => rw [hpp] at hp; exact absurd rfl hp
          | some d => exact ⟨d, rfl⟩
        have hu : p.uncertPrec ≠ [] := by
          rcases (by simpa using hc : _ ∨ _) with h | h
          · exact absurd h.1 hp
          · exact h
        rw [hd, Option.getD_some, if_neg (h0 hu d hd)]
        exact ⟨_, rfl⟩
      · rw [if_neg hp]
        exact ⟨_, rfl⟩
    · rw [if_neg hs]
      exact hfl _ _
  · exact hfl _ _

theorem bind_total {α β : Type} {m : PyRes α} {k : α → PyRes β} (h : ∃ a, m = .ok a) (hk : ∀ a, m = .ok a → ∃ o, k a = .ok o) :
    ∃ o, (m >>= k) = .ok o := by
  obtain ⟨a, rfl⟩ := h
  exact hk a rfl

theorem formatPlan_total {p : FmtParts} (hv : p.Valid) (h0 : p.uncertPrec ≠ [] → ∀ d, p.prec = some d → digitsVal d ≠ 0)
    {x s : FNum} (hx : x.Moderate 300) (hs : s.Moderate 300) (hpos : ∀ q, s = .fin q → 0 ≤ q) :
    ∃ plan, formatPlan p x s = .ok plan := by
  unfold formatPlan
  simp only []
  refine bind_total (digitsLimit_total hv h0 _ _ _) ?_
  rintro ⟨lo, S', pr⟩ -
  simp only []
  have hE : ∀ e, commonExponent (if p.type = ['%'] then some 'f' else p.type.head?)
      (realValues (if p.type = ['%'] then x.scale 100 else x) (if p.type = ['%'] then s.scale 100 else s)) lo = some e →
      -301 ≤ e ∧ e ≤ 300 := by
    intro e he
    by_cases hpc : p.type = ['%']
    · simp only [hpc, if_true] at he
      unfold commonExponent at he
      rw [if_pos (.inl rfl)] at he
      cases he
    · simp only [hpc, if_false] at he
      exact commonExponent_moderate (by norm_num) (realValues_moderate hx hs hpos) he
  generalize commonExponent (if p.type = ['%'] then some 'f' else p.type.head?)
      (realValues (if p.type = ['%'] then x.scale 100 else x) (if p.type = ['%'] then s.scale 100 else s)) lo = E at hE ⊢
  cases E with
  | none => exact ⟨_, rfl⟩
  | some e =>
    cases lo with
    | none => exact ⟨_, rfl⟩
    | some l =>
      obtain ⟨h1, h2⟩ := hE e rfl
      have : mantissaFactor e = .ok ((10 : ℚ) ^ e) := by
        unfold mantissaFactor pow10
        rw [if_neg (by omega), if_neg (by omega)]
        rfl
      simp only [this]
      exact ⟨_, rfl⟩

/-! ### The number of digits after the decimal point -/

theorem firstDigit_lower {N : ℤ} (hN : 0 ≤ N) {v : ℚ} (h : v = 0 ∨ (10 : ℚ) ^ (-N) ≤ v) : -N ≤ firstDigit v := by
  rcases h with rfl | h
  · have : firstDigit 0 = 0 := rfl
    omega
  · have hpos : 0 < v := lt_of_lt_of_le (ten_pos _) h
    obtain ⟨a1, a2⟩ := firstDigit_spec hpos.ne'
    rw [abs_of_pos hpos] at a2
    have := ten_lt_iff.1 (lt_of_le_of_lt h a2)
    omega

theorem signif_lower (v : ℚ) (n : ℤ) : firstDigit v - n + 1 ≤ signifDgtToLimit v n := by
  unfold signifDgtToLimit
  simp only []
  split_ifs <;> omega

theorem pdg_lower {N : ℤ} (hN : 0 ≤ N) {v : ℚ} (hv : 0 < v) (h : (10 : ℚ) ^ (-N) ≤ v) :
    -N - 1 ≤ signifDgtToLimit (pdgPrecision v).2 (pdgPrecision v).1 := by
  obtain ⟨t, d, htd⟩ := exists_leading hv
  have hd : (10 : ℚ) ^ d ≤ v := by
    have := htd.exponent.1.1
    rwa [abs_of_pos hv] at this
  have hd2 : v < (10 : ℚ) ^ (d + 1) := by
    have := htd.exponent.1.2
    rwa [abs_of_pos hv] at this
  have hge : (10 : ℚ) ^ (-N) ≤ (pdgPrecision v).2 ∧ (pdgPrecision v).1 ≤ 2 := by
    rw [pdg_eq htd]
    split_ifs
    · exact ⟨h, le_rfl⟩
    · exact ⟨h, by norm_num⟩
    · exact ⟨h.trans hd2.le, le_rfl⟩
  have h1 := firstDigit_lower hN (.inr hge.1)
  have h2 := signif_lower (pdgPrecision v).2 (pdgPrecision v).1
  have h3 : ((pdgPrecision v).1 : ℤ) ≤ 2 := by exact_mod_cast hge.2
  omega

theorem digitsLimit_lower {N : ℤ} (hN : 100 ≤ N) {p : FmtParts} {pres : Option Char} {x s : FNum}
    (hr : ∀ v ∈ realValues x s, v = 0 ∨ (10 : ℚ) ^ (-N) ≤ v) (hd : ∀ d, p.prec = some d → digitsVal d ≤ 100)
    {r : Option ℤ × FNum × ℕ} (h : digitsLimit p pres x s = .ok r) : ∀ l, r.1 = some l → -N - 100 ≤ l := by
  have hfl : ∀ {fp : Str} {reals : List ℚ}, (∀ v ∈ reals, v = 0 ∨ (10 : ℚ) ^ (-N) ≤ v) → digitsVal fp ≤ 100 →
      digitsLimit.floatLimit pres s fp reals = .ok r → ∀ l, r.1 = some l → -N - 100 ≤ l := by
    intro fp reals hreals hfp h l hl
    unfold digitsLimit.floatLimit at h
    simp only [] at h
    have hprec : (if fp ≠ [] then digitsVal fp else if pres = none then 12 else 6) ≤ 100 := by
      split_ifs <;> omega
    generalize (if fp ≠ [] then digitsVal fp else if pres = none then 12 else 6) = prec at h hprec
    by_cases hf : pres = some 'f' ∨ pres = some 'F'
    · rw [if_pos hf] at h
      injection h with h
      rw [← h] at hl
      injection hl with hl
      omega
    · rw [if_neg hf] at h
      have hns : (if pres = some 'e' ∨ pres = some 'E' then prec + 1 else if prec = 0 then 1 else prec) ≤ 101 := by
        split_ifs <;> omega
      generalize (if pres = some 'e' ∨ pres = some 'E' then prec + 1 else if prec = 0 then 1 else prec) = ns at h hns
      cases hv : expRefValue reals with
      | none =>
        rw [hv] at h
        injection h with h
        rw [← h] at hl
        cases hl
      | some v =>
        rw [hv] at h
        injection h with h
        rw [← h] at hl
        injection hl with hl
        have hvv : v = 0 ∨ (10 : ℚ) ^ (-N) ≤ v := by
          match reals, hreals, hv with
          | [a], hreals, hv =>
            obtain rfl : a = v := by simpa [expRefValue] using hv
            exact hreals _ (by simp)
          | a :: b :: _, hreals, hv =>
            obtain rfl : max a b = v := by simpa [expRefValue] using hv
            rcases max_choice a b with h | h <;> rw [h] <;> exact hreals _ (by simp)
        have h1 := firstDigit_lower (by omega) hvv
        have h2 := signif_lower v ns
        have h3 : (ns : ℤ) ≤ 101 := by exact_mod_cast hns
        omega
  have hfp : digitsVal (p.prec.getD []) ≤ 100 := by
    cases hp : p.prec with
    | none => decide
    | some d => exact hd d hp
  unfold digitsLimit at h
  simp only [] at h
  split at h
  · rename_i q hc
    by_cases hq : q ≠ 0
    · rw [if_pos hq] at h
      have hqm : q = 0 ∨ (10 : ℚ) ^ (-N) ≤ q := hr q (by simp [realValues])
      have hql := hqm.resolve_left hq
      by_cases hp : p.prec.getD [] ≠ []
      · rw [if_pos hp] at h
        split_ifs at h with h0
        injection h with h
        intro l hl
        rw [← h] at hl
        injection hl with hl
        have h1 := firstDigit_lower (by omega) hqm
        have h2 := signif_lower q (digitsVal (p.prec.getD []))
        have h3 : ((digitsVal (p.prec.getD []) : ℕ) : ℤ) ≤ 100 := by exact_mod_cast hfp
        omega
      · rw [if_neg hp] at h
        injection h with h
        intro l hl
        rw [← h] at hl
        injection hl with hl
        have := pdg_lower (N := N) (by omega) (lt_of_lt_of_le (ten_pos _) hql) hql
        omega
    · rw [if_neg hq] at h
      exact hfl hr hfp h
  · exact hfl hr hfp h

theorem digitsLimit_none {p : FmtParts} {pres : Option Char} {x s : FNum} {r : Option ℤ × FNum × ℕ}
    (h : digitsLimit p pres x s = .ok r) (hn : r.1 = none) : realValues x s = [] ∧ r.2.1 = s := by
  have hfl : ∀ {fp : Str} {reals : List ℚ}, digitsLimit.floatLimit pres s fp reals = .ok r → reals = [] ∧ r.2.1 = s := by
    intro fp reals h
    unfold digitsLimit.floatLimit at h
    simp only [] at h
    by_cases hf : pres = some 'f' ∨ pres = some 'F'
    · rw [if_pos hf] at h
      injection h with h
      rw [← h] at hn
      cases hn
    · rw [if_neg hf] at h
      match reals, h with
      | [], h =>
        injection h with h
        rw [← h]
        exact ⟨rfl, rfl⟩
      | [a], h =>
        injection h with h
        rw [← h] at hn
        cases hn
      | a :: b :: _, h =>
        injection h with h
        rw [← h] at hn
        cases hn
  unfold digitsLimit at h
  simp only [] at h
  split at h
  · rename_i q hc
    by_cases hq : q ≠ 0
    · rw [if_pos hq] at h
      by_cases hp : p.prec.getD [] ≠ []
      · rw [if_pos hp] at h
        split_ifs at h with h0
        injection h with h
        rw [← h] at hn
        cases hn
      · rw [if_neg hp] at h
        injection h with h
        rw [← h] at hn
        cases hn
    · rw [if_neg hq] at h
      exact hfl h
  · exact hfl h

/-- The number of digits printed after the decimal point is not too large. -/
theorem formatPlan_prec {p : FmtParts} {x s : FNum} (hx : x.Moderate 100) (hs : s.Moderate 100)
    (hpos : ∀ q, s = .fin q → 0 ≤ q) (hd : ∀ d, p.prec = some d → digitsVal d ≤ 100) {plan : Plan}
    (h : formatPlan p x s = .ok plan) : ∀ u, plan.errorMain = .fin u → plan.prec ≤ 308 := by
  obtain ⟨lo, S', pr, hl, hE, -, -, herr, hprec, -⟩ := formatPlan_ok h
  intro u hu
  have hsc : scaleOf p = 1 ∨ scaleOf p = 100 := by unfold scaleOf; split_ifs <;> simp
  have h1 : 1 ≤ scaleOf p := by rcases hsc with h | h <;> rw [h] <;> norm_num
  have hlow : ∀ v ∈ realValues (x.scale (scaleOf p)) (s.scale (scaleOf p)), v = 0 ∨ (10 : ℚ) ^ (-(100 : ℤ)) ≤ v := by
    intro v hv
    unfold realValues at hv
    have key : ∀ w : ℚ, 0 ≤ w → Moderate 100 w → w * scaleOf p = 0 ∨ (10 : ℚ) ^ (-(100 : ℤ)) ≤ w * scaleOf p := by
      intro w hw hm
      rcases hm with rfl | hm
      · left; simp
      · right; exact hm.1.trans (le_mul_of_one_le_right hw h1)
    rcases List.mem_append.1 hv with hv | hv
    · cases x with
      | fin q =>
        obtain rfl : v = |q * scaleOf p| := by simpa [FNum.scale] using hv
        rw [abs_mul, abs_of_pos (scaleOf_pos p)]
        exact key _ (abs_nonneg _) hx
      | inf b => simp [FNum.scale] at hv
      | nan => simp [FNum.scale] at hv
    · cases s with
      | fin q =>
        obtain rfl : v = q * scaleOf p := by simpa [FNum.scale] using hv
        have hq := hpos q rfl
        refine key _ hq ?_
        have h2 : Moderate 100 |q| := hs
        rwa [abs_of_nonneg hq] at h2
      | inf b => simp [FNum.scale] at hv
      | nan => simp [FNum.scale] at hv
  have hlo := digitsLimit_lower le_rfl hlow hd hl
  have hup : ∀ y : FNum, y.Moderate 100 → (y.scale (scaleOf p)).Moderate 102 := by
    intro y hy
    cases y with
    | fin q =>
      show Moderate 102 |q * scaleOf p|
      rw [abs_mul, abs_of_pos (scaleOf_pos p)]
      have hq : (0 : ℚ) ≤ |q| := abs_nonneg q
      rcases hy with hy | ⟨hy1, hy2⟩
      · left; rw [hy, zero_mul]
      · right
        have e1 : (10 : ℚ) ^ (-(102 : ℤ)) ≤ (10 : ℚ) ^ (-(100 : ℤ)) := ten_le_iff.2 (by norm_num)
        have e2 : (10 : ℚ) ^ (102 : ℤ) = (10 : ℚ) ^ (100 : ℤ) * 100 := by
          rw [show (102 : ℤ) = 100 + 2 by norm_num, ten_add]; norm_num
        refine ⟨e1.trans (hy1.trans (le_mul_of_one_le_right hq h1)), ?_⟩
        rw [e2]
        have h100 : scaleOf p ≤ 100 := by rcases hsc with h | h <;> rw [h] <;> norm_num
        exact mul_le_mul hy2 h100 (scaleOf_pos p).le (ten_pos _).le
    | inf b => trivial
    | nan => trivial
  have hpos' : ∀ q, s.scale (scaleOf p) = .fin q → 0 ≤ q := by
    intro q hq
    cases s with
    | fin w =>
      injection hq with hq
      rw [← hq]
      exact mul_nonneg (hpos w rfl) (scaleOf_pos p).le
    | inf b => cases hq
    | nan => cases hq
  have hE2 : plan.commonExp.getD 0 ≤ 102 := by
    cases he : plan.commonExp with
    | none => simp
    | some e =>
      rw [he] at hE
      exact (commonExponent_moderate (by norm_num) (realValues_moderate (hup x hx) (hup s hs) hpos') hE.symm).2
  cases lo with
  | some l =>
    rw [hprec l rfl]
    have := hlo l rfl
    split_ifs <;> omega
  | none =>
    obtain ⟨h2, h3⟩ := digitsLimit_none hl rfl
    simp only [] at h3
    rw [herr, h3] at hu
    cases s with
    | fin q => simp [realValues, FNum.scale] at h2
    | inf b => cases hu
    | nan => cases hu

end Unc
